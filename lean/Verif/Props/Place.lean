import Verif.Lemmas.Regrow
import Verif.Props.SuppressionEdit
/-!
# C77: suppression comments are only comments
-/
namespace Jarl
open Spec

/-! ### Gaps -/

theorem gapOk_append {b : Bool} {g : Str} (h : gapOk b g = true) (x : Str) : gapOk b (g ++ x) = gapOk false x := by
  induction g generalizing b with
  | nil => cases b
           · rfl
           · cases h
  | cons c g ih =>
    cases b
    · simp only [gapOk] at h
      rw [List.cons_append, gapOk]
      split at h
      · rename_i hc; rw [if_pos hc, ih h]
      · rename_i hc
        rw [if_neg hc]
        split at h
        · rename_i hc2; rw [if_pos hc2, ih h]
        · cases h
    · simp only [gapOk] at h
      rw [List.cons_append, gapOk, ih h]

theorem gapRun_gap {b : Bool} {g : Str} (h : gapOk b g = true) (x : Str) : gapRun b (g ++ x) = (g ++ (gapRun false x).1, (gapRun false x).2) := by
  induction g generalizing b with
  | nil => cases b
           · rfl
           · cases h
  | cons c g ih =>
    cases b
    · simp only [gapOk] at h
      rw [List.cons_append, gapRun]
      split at h
      · rename_i hc; rw [if_pos hc, ih h]; rfl
      · rename_i hc
        rw [if_neg hc]
        split at h
        · rename_i hc2; rw [if_pos hc2, ih h]; rfl
        · cases h
    · simp only [gapOk] at h
      rw [List.cons_append, gapRun, ih h]; rfl

theorem tail_gap {g : Str} (h : gapOk false g = true) (x : Str) : TailOk (g ++ x) ↔ TailOk x := by
  unfold TailOk
  rw [gapRun_gap h]
  constructor
  · intro e
    rw [← Prod.eta (gapRun false x)]
    simp only [Prod.mk.injEq, List.append_cancel_left_eq] at e
    rw [e.1, e.2]
  · intro e; rw [e]

theorem gapOk_cut {b : Bool} {g x : Str} (h : gapOk b (g ++ '\n' :: x) = true) : gapOk b (g ++ ['\n']) = true := by
  induction g generalizing b with
  | nil => cases b <;> rfl
  | cons c g ih =>
    cases b
    · rw [List.cons_append, gapOk] at h
      rw [List.cons_append, gapOk]
      split at h
      · rename_i hc; rw [if_pos hc]; exact ih h
      · rename_i hc
        rw [if_neg hc]
        split at h
        · rename_i hc2; rw [if_pos hc2]; exact ih h
        · cases h
    · rw [List.cons_append, gapOk] at h
      rw [List.cons_append, gapOk]
      exact ih h

theorem tail_cut {b : Bool} {g x : Str} (h : (gapRun b (g ++ '\n' :: x)).2 = []) : gapOk b (g ++ ['\n']) = true := by
  induction g generalizing b with
  | nil => cases b <;> rfl
  | cons c g ih =>
    cases b
    · rw [List.cons_append, gapRun] at h
      rw [List.cons_append, gapOk]
      split at h
      · rename_i hc; rw [if_pos hc]; exact ih h
      · rename_i hc
        rw [if_neg hc]
        split at h
        · rename_i hc2; rw [if_pos hc2]; exact ih h
        · cases h
    · rw [List.cons_append, gapRun] at h
      rw [List.cons_append, gapOk]
      exact ih h

theorem ws_no_wordchar {c : Char} (h : isWs c = true) : isWordChar c = false := by
  cases hw : isWordChar c with
  | false => rfl
  | true =>
    simp only [isWordChar, h, Bool.not_true, Bool.and_false, Bool.or_false, Bool.or_eq_true, decide_eq_true_eq] at hw
    rcases hw with (hw | rfl) | rfl
    · exact (ws_not_word h (.inl hw)).elim
    all_goals exact absurd h (by decide)

theorem edge_not_ws {c : Char} (h : isEdgeChar c = true) : isWs c = false := by
  cases hw : isWs c with
  | false => rfl
  | true =>
    rcases edge_cases h with h | rfl | rfl | rfl
    · rw [ws_no_wordchar hw] at h; cases h
    all_goals exact absurd hw (by decide)

theorem sym_not_ws {c : Char} (h : isSymChar c = true) : isWs c = false := by
  cases hw : isWs c with
  | false => rfl
  | true =>
    simp only [isSymChar, List.contains_eq_mem, List.mem_cons, List.not_mem_nil, or_false, decide_eq_true_eq] at h
    rcases h with h | h | h | h | h | h | h | h | h | h | h | h | h | h | h | h | h | h | h | h | h | h | h | h | h <;> subst h <;> exact absurd hw (by decide)

/-- Tokens begin and end with other characters than white space. -/
theorem good_edges {k : TK} (h : Good k) : (∀ c, k.text.head? = some c → isWs c = false) ∧ ∃ t c, k.text = t ++ [c] ∧ isWs c = false := by
  have last : ∀ {s : Str} {c : Char}, s.getLast? = some c → ∃ t, s = t ++ [c] := by
    intro s c hc
    exact List.getLast?_eq_some_iff.mp hc
  cases k with
  | atom a s =>
    obtain ⟨c, d, h1, h2, h3, h4⟩ := h.1
    refine ⟨fun x hx => ?_, ?_⟩
    · rw [h1] at hx; cases hx; exact edge_not_ws h3
    · obtain ⟨t, ht⟩ := last h2; exact ⟨t, d, ht, edge_not_ws h4⟩
  | op o =>
    obtain ⟨c, h1, h2⟩ := op_text_head o
    obtain ⟨d, h3, h4⟩ := op_text_last o
    refine ⟨fun x hx => ?_, ?_⟩
    · rw [TK.text, h1] at hx; cases hx; exact sym_not_ws h2
    · obtain ⟨t, ht⟩ := last h3; exact ⟨t, d, ht, sym_not_ws h4⟩
  | «open» b => cases b <;> exact ⟨by intro c hc; cases hc; decide, _, _, last (by rfl) |>.choose_spec, by decide⟩
  | close b => cases b <;> exact ⟨by intro c hc; cases hc; decide, _, _, last (by rfl) |>.choose_spec, by decide⟩
  | fn b => cases b <;> exact ⟨by intro c hc; cases hc; decide, _, _, last (by rfl) |>.choose_spec, by decide⟩
  | ext b => cases b <;> exact ⟨by intro c hc; cases hc; decide, _, _, last (by rfl) |>.choose_spec, by decide⟩
  | _ => exact ⟨by intro c hc; cases hc; decide, _, _, last (by rfl) |>.choose_spec, by decide⟩

theorem ws_gap_blank {g rest : Str} (h : gapOk false g = true) (hr : ∀ c, rest.head? = some c → isWs c = false) :
    ∀ c ∈ (g ++ rest).takeWhile (fun c => isWs c && c ≠ '\n'), isBlank c = true := by
  induction g with
  | nil =>
    cases rest with
    | nil => intro c hc; cases hc
    | cons x rest => intro c hc; simp [hr x rfl] at hc
  | cons x g ih =>
    rw [gapOk] at h
    intro c hc
    rw [List.cons_append, List.takeWhile_cons] at hc
    split at hc
    · rename_i hx
      simp only [Bool.and_eq_true, decide_eq_true_eq] at hx
      split at h
      · rename_i hb
        simp only [Bool.or_eq_true, decide_eq_true_eq] at hb
        rcases List.mem_cons.mp hc with rfl | hc
        · rcases hb with hb | hb
          · exact hb
          · exact absurd hb hx.2
        · exact ih h c hc
      · split at h
        · rename_i hs; subst hs; exact absurd hx.1 (by decide)
        · cases h
    · cases hc

theorem ws_tail_blank {g : Str} (h : (gapRun false g).2 = []) : ∀ c ∈ g.takeWhile (fun c => isWs c && c ≠ '\n'), isBlank c = true := by
  induction g with
  | nil => intro c hc; cases hc
  | cons x g ih =>
    rw [gapRun] at h
    intro c hc
    rw [List.takeWhile_cons] at hc
    split at hc
    · rename_i hx
      simp only [Bool.and_eq_true, decide_eq_true_eq] at hx
      split at h
      · rename_i hb
        simp only [Bool.or_eq_true, decide_eq_true_eq] at hb
        rcases List.mem_cons.mp hc with rfl | hc
        · rcases hb with hb | hb
          · exact hb
          · exact absurd hb hx.2
        · exact ih h c hc
      · split at h
        · rename_i hs; subst hs; exact absurd hx.1 (by decide)
        · cases h
    · cases hc

/-! ### The inserted text -/

theorem comment_gap {s x : Str} (h : '\n' ∉ s) : gapOk true (s ++ '\n' :: x) = gapOk false x := by
  induction s with
  | nil => rfl
  | cons c s ih =>
    have hc : c ≠ '\n' := fun e => h (by rw [e]; exact List.mem_cons_self ..)
    rw [List.cons_append, gapOk]
    simp only [hc, ne_eq, not_false_eq_true, decide_true]
    exact ih fun hm => h (List.mem_cons_of_mem _ hm)

theorem blanks_gap {i x : Str} (h : ∀ c ∈ i, isBlank c = true) : gapOk false (i ++ x) = gapOk false x := by
  induction i with
  | nil => rfl
  | cons c i ih =>
    rw [List.cons_append, gapOk, if_pos (by simp [h c (List.mem_cons_self ..)]), ih fun d hd => h d (List.mem_cons_of_mem _ hd)]

theorem comments_gap (reason indent : Str) (hr : '\n' ∉ reason) (hi : ∀ c ∈ indent, isBlank c = true) (x : Str) : ∀ (names : List Str), (∀ r ∈ names, '\n' ∉ r) →
    gapOk false (commentLines names reason indent ++ x) = gapOk false x
  | [], _ => rfl
  | r :: rs, h => by
    have hh : '\n' ∉ cs! " jarl-ignore " ++ r ++ cs! ": " ++ reason := by
      simp [hr, h r (List.mem_cons_self ..)]
    have e : commentLines (r :: rs) reason indent ++ x = indent ++ ('#' :: ((cs! " jarl-ignore " ++ r ++ cs! ": " ++ reason) ++ '\n' :: (commentLines rs reason indent ++ x))) := by
      simp [commentLines]
    rw [e, blanks_gap hi, gapOk, if_neg (by decide), if_pos rfl, comment_gap hh]
    exact comments_gap reason indent hr hi x rs fun q hq => h q (List.mem_cons_of_mem _ hq)

/-- The text that is put in is blanks, line breaks and comments. -/
theorem inserted_gap {names : List Str} {reason indent : Str} {lead : Bool} (hn : ∀ r ∈ names, '\n' ∉ r) (hne : names ≠ []) (hr : '\n' ∉ reason) (hi : ∀ c ∈ indent, isBlank c = true) :
    gapOk false (formatSuppressionComments names reason indent lead) = true ∧ '\n' ∈ formatSuppressionComments names reason indent lead := by
  constructor
  · unfold formatSuppressionComments
    rw [List.append_assoc]
    have h1 : gapOk false (if lead then indent else []) = true := by
      split
      · have := blanks_gap (x := []) hi
        rw [List.append_nil] at this
        rw [this]; rfl
      · rfl
    have h2 := comments_gap reason indent hr hi (if lead then indent else []) names hn
    cases lead
    · exact h2.trans h1
    · show gapOk false ('\n' :: _) = true
      rw [gapOk, if_pos (by decide)]
      exact h2.trans h1
  · cases names with
    | nil => exact absurd rfl hne
    | cons r rs => simp [formatSuppressionComments, commentLines]

/-! ### One insertion -/

/-- Text can be put in at this byte: between two tokens, not in a comment, where line breaks may be. -/
def GapPlace (bs : List Bool) (src : Src) (o : Nat) : Prop :=
  (∃ a g1 g2 k b, src.pieces = a ++ ⟨g1 ++ g2, k⟩ :: b ∧ blen (piecesText a ++ g1) = o ∧ gapOk false g1 = true ∧ ('\n' ∈ g1 ++ g2 ∨ bs[a.length]? = some true)) ∨
  (∃ g1 g2, src.tail = g1 ++ g2 ∧ blen (piecesText src.pieces ++ g1) = o ∧ gapOk false g1 = true)

theorem gap_prefix {g1 g2 h1 h2 : Str} (e : g1 ++ g2 = h1 ++ h2) (hl : blen h1 ≤ blen g1) : ∃ x, g1 = h1 ++ x ∧ h2 = x ++ g2 := by
  rcases List.append_eq_append_iff.mp e with ⟨as, e1, e2⟩ | ⟨as, e1, e2⟩
  · have : as = [] := by
      cases as with
      | nil => rfl
      | cons c as =>
        have := blen_pos (s := c :: as) (by simp)
        rw [e1, blen_append] at hl; omega
    subst this
    exact ⟨[], by simp_all, by simp_all⟩
  · exact ⟨as, e1, e2⟩

theorem grown_insert (bs : List Bool) (a b : List Piece) (g g' : Str) (k : TK) (hl : bs.length = (a ++ ⟨g, k⟩ :: b).length) (hg : ∀ p ∈ a ++ ⟨g, k⟩ :: b, gapOk false p.gap = true)
    (h1 : g' ≠ []) (h2 : '\n' ∈ g') (h3 : '\n' ∈ g ∨ bs[a.length]? = some true) (h4 : gapOk false g' = true) : Grown bs (a ++ ⟨g, k⟩ :: b) (a ++ ⟨g', k⟩ :: b) := by
  induction a generalizing bs with
  | nil =>
    cases bs with
    | nil => cases hl
    | cons x bs =>
      refine .cons rfl (fun e => absurd e h1) (fun _ => h2) (fun _ => ?_) h4 (grown_refl _ _ (by simpa using hl) fun p hp => hg p (List.mem_cons_of_mem _ hp))
      rcases h3 with h3 | h3
      · exact .inl h3
      · exact .inr (by simpa using h3)
  | cons p a ih =>
    cases bs with
    | nil => cases hl
    | cons x bs =>
      exact .cons rfl id id .inl (hg p (List.mem_cons_self ..)) (ih bs (by simpa using hl) (fun q hq => hg q (List.mem_cons_of_mem _ hq)) (by simpa using h3))

theorem insert_step {bs : List Bool} {src : Src} {o : Nat} {t out : Str} (hl : bs.length = src.pieces.length) (hg : ∀ p ∈ src.pieces, gapOk false p.gap = true) (ht : TailOk src.tail)
    (hp : GapPlace bs src o) (h1 : gapOk false t = true) (h2 : '\n' ∈ t) (h : insertStr src.text o t = some out) :
    ∃ src' : Src, out = src'.text ∧ Grown bs src.pieces src'.pieces ∧ TailOk src'.tail ∧ ∀ o', o' < o → GapPlace bs src o' → GapPlace bs src' o' := by
  obtain ⟨ps, tail⟩ := src
  simp only at hl hg ht
  have ins : ∀ {x y : Str}, Src.text ⟨ps, tail⟩ = x ++ y → blen x = o → out = x ++ t ++ y := by
    intro x y e1 e2
    unfold insertStr at h
    rw [splitAtByte_iff.mpr ⟨e1, e2⟩] at h
    cases h; rfl
  rcases hp with ⟨a, g1, g2, k, b, e1, e2, e3, e4⟩ | ⟨g1, g2, e1, e2, e3⟩
  · simp only at e1
    subst e1
    have hok : gapOk false (g1 ++ g2) = true := hg ⟨g1 ++ g2, k⟩ (by simp)
    have hok2 : gapOk false (g1 ++ t ++ g2) = true := by
      rw [List.append_assoc, gapOk_append e3, gapOk_append h1]
      rw [gapOk_append e3] at hok; exact hok
    have hnl : '\n' ∈ g1 ++ t ++ g2 := by simp [h2]
    refine ⟨⟨a ++ ⟨g1 ++ t ++ g2, k⟩ :: b, tail⟩, ?_, grown_insert bs a b _ _ k hl hg (by intro e; rw [e] at hnl; cases hnl) hnl e4 hok2, ht, ?_⟩
    · rw [ins (x := piecesText a ++ g1) (y := g2 ++ k.text ++ piecesText b ++ tail) (by simp [Src.text, piecesText_append, piecesText]) e2]
      simp [Src.text, piecesText_append, piecesText]
    · intro o' ho' hp'
      rcases hp' with ⟨a', g1', g2', k', b', f1, f2, f3, f4⟩ | ⟨g1', g2', f1, f2, f3⟩
      · simp only at f1
        have same : a = a' → GapPlace bs ⟨a ++ ⟨g1 ++ t ++ g2, k⟩ :: b, tail⟩ o' := by
          rintro rfl
          have f1' := List.append_cancel_left f1
          simp only [List.cons.injEq, Piece.mk.injEq] at f1'
          obtain ⟨⟨eg, rfl⟩, rfl⟩ := f1'
          obtain ⟨x, rfl, rfl⟩ := gap_prefix eg (by simp only [blen_append] at e2 f2; omega)
          exact .inl ⟨a, g1', x ++ t ++ g2, k, b, by simp, f2, f3, .inl (by simp [h2])⟩
        rcases List.append_eq_append_iff.mp f1 with ⟨as, i1, i2⟩ | ⟨as, i1, i2⟩
        · cases as with
          | nil => exact same (by simpa using i1.symm)
          | cons q as =>
            simp only [List.cons_append, List.cons.injEq] at i2
            obtain ⟨rfl, rfl⟩ := i2
            exfalso
            rw [i1, piecesText_append] at f2
            simp only [piecesText, blen_append] at f2 e2
            omega
        · cases as with
          | nil => exact same (by simpa using i1)
          | cons q as =>
            simp only [List.cons_append, List.cons.injEq] at i2
            obtain ⟨rfl, rfl⟩ := i2
            exact .inl ⟨a', g1', g2', k', as ++ ⟨g1 ++ t ++ g2, k⟩ :: b, by simp [i1], f2, f3, f4⟩
      · exfalso
        simp only [piecesText_append, piecesText, blen_append] at f2 e2
        omega
  · simp only at e1
    subst e1
    have ht2 : TailOk (g1 ++ t ++ g2) := by
      rw [List.append_assoc, tail_gap e3, tail_gap h1]
      rw [tail_gap e3] at ht; exact ht
    refine ⟨⟨ps, g1 ++ t ++ g2⟩, ?_, grown_refl _ _ hl hg, ht2, ?_⟩
    · rw [ins (x := piecesText ps ++ g1) (y := g2) (by simp [Src.text]) e2]
      simp [Src.text]
    · intro o' ho' hp'
      rcases hp' with ⟨a', g1', g2', k', b', f1, f2, f3, f4⟩ | ⟨g1', g2', f1, f2, f3⟩
      · exact .inl ⟨a', g1', g2', k', b', f1, f2, f3, f4⟩
      · simp only at f1 f2 e2
        obtain ⟨x, rfl, rfl⟩ := gap_prefix f1 (by simp only [blen_append] at e2 f2; omega)
        exact .inr ⟨g1', x ++ t ++ g2, by simp, f2, f3⟩

theorem grown_length {bs ps ps'} (h : Grown bs ps ps') : bs.length = ps'.length := by
  induction h with
  | nil => rfl
  | cons _ _ _ _ _ _ ih => simp [ih]

theorem grown_gaps {bs ps ps'} (h : Grown bs ps ps') : ∀ p ∈ ps', gapOk false p.gap = true := by
  induction h with
  | nil => simp
  | cons _ _ _ _ h5 _ ih =>
    intro q hq
    rcases List.mem_cons.mp hq with rfl | hq
    · exact h5
    · exact ih q hq

theorem insert_all {bs : List Bool} {reason : Str} (hr : '\n' ∉ reason) : ∀ (l : List MergedEdit) (src : Src) (out : Str), bs.length = src.pieces.length →
    (∀ p ∈ src.pieces, gapOk false p.gap = true) → TailOk src.tail → l.Pairwise (fun a b => b.point.offset < a.point.offset) →
    (∀ m ∈ l, GapPlace bs src m.point.offset ∧ (∀ c ∈ m.point.indent, isBlank c = true) ∧ m.rules ≠ [] ∧ ∀ r ∈ m.rules, '\n' ∉ r) →
    applyInsertions reason l src.text = some out → ∃ src' : Src, out = src'.text ∧ Grown bs src.pieces src'.pieces ∧ TailOk src'.tail := by
  intro l
  induction l with
  | nil => intro src out hl hg ht _ _ h; cases h; exact ⟨src, rfl, grown_refl _ _ hl hg, ht⟩
  | cons m ms ih =>
    intro src out hl hg ht hp hm h
    obtain ⟨p1, p2⟩ := List.pairwise_cons.mp hp
    obtain ⟨m1, m2, m3, m4⟩ := hm m (List.mem_cons_self ..)
    obtain ⟨t1, t2⟩ := inserted_gap (lead := m.point.needsLeadingNewline) m4 m3 hr m2
    unfold applyInsertions at h
    split at h
    · cases h
    · rename_i c hc
      obtain ⟨src1, rfl, g1, g2, g3⟩ := insert_step hl hg ht m1 t1 t2 hc
      obtain ⟨src2, rfl, f1, f2⟩ := ih src1 out (grown_length g1) (grown_gaps g1) g2 p2
        (fun k hk => ⟨g3 _ (p1 k hk) (hm k (List.mem_cons_of_mem _ hk)).1, (hm k (List.mem_cons_of_mem _ hk)).2⟩) h
      exact ⟨src2, rfl, grown_trans g1 f1, f2⟩

/-! ### Beginnings of lines -/

theorem split_pieces : ∀ (ps : List Piece) (tail x y : Str), piecesText ps ++ tail = x ++ y →
    (∃ a g1 g2 k b, ps = a ++ ⟨g1 ++ g2, k⟩ :: b ∧ x = piecesText a ++ g1) ∨
    (∃ a p b t1 t2, ps = a ++ p :: b ∧ p.k.text = t1 ++ t2 ∧ t1 ≠ [] ∧ t2 ≠ [] ∧ x = piecesText a ++ p.gap ++ t1) ∨
    ∃ g1 g2, tail = g1 ++ g2 ∧ x = piecesText ps ++ g1
  | [], tail, x, y, h => .inr (.inr ⟨x, y, h, rfl⟩)
  | p :: ps, tail, x, y, h => by
    obtain ⟨g, k⟩ := p
    rw [piecesText, List.append_assoc, List.append_assoc] at h
    rcases List.append_eq_append_iff.mp h with ⟨u, rfl, h2⟩ | ⟨u, h1, h2⟩
    · rcases List.append_eq_append_iff.mp h2 with ⟨v, rfl, h4⟩ | ⟨v, h3, h4⟩
      · rcases split_pieces ps tail v y h4 with ⟨a, g1, g2, k', b, rfl, rfl⟩ | ⟨a, q, b, t1, t2, rfl, h5, h6, h7, rfl⟩ | ⟨g1, g2, h5, rfl⟩
        · exact .inl ⟨⟨g, k⟩ :: a, g1, g2, k', b, rfl, by simp [piecesText]⟩
        · exact .inr (.inl ⟨⟨g, k⟩ :: a, q, b, t1, t2, rfl, h5, h6, h7, by simp [piecesText]⟩)
        · exact .inr (.inr ⟨g1, g2, h5, by simp [piecesText]⟩)
      · by_cases hu : u = []
        · subst hu; exact .inl ⟨[], g, [], k, ps, by simp, by simp [piecesText]⟩
        · by_cases hv : v = []
          · subst hv
            simp only [List.append_nil] at h3
            subst h3
            cases ps with
            | nil => exact .inr (.inr ⟨[], tail, rfl, by simp [piecesText]⟩)
            | cons q ps => obtain ⟨g', k'⟩ := q; exact .inl ⟨[⟨g, k⟩], [], g', k', ps, rfl, by simp [piecesText]⟩
          · exact .inr (.inl ⟨[], ⟨g, k⟩, ps, u, v, rfl, h3, hu, hv, by simp [piecesText]⟩)
    · simp only at h1
      subst h1
      exact .inl ⟨[], x, u, k, ps, rfl, by simp [piecesText]⟩

theorem ends_with_token {a : List Piece} {p : Piece} {q : Str} (hg : Good p.k) : piecesText (a ++ [p]) ≠ q ++ ['\n'] := by
  intro h
  obtain ⟨t, c, h1, h2⟩ := (good_edges hg).2
  rw [piecesText_append, piecesText, piecesText, List.append_nil, h1, ← List.append_assoc, ← List.append_assoc] at h
  have := (List.append_inj' h rfl).2
  cases this
  exact absurd h2 (by decide)

/-- The beginning of a line, if it is not inside a token, is a place for comments, and the line is indented with blanks. -/
theorem place_of_line {bs : List Bool} {src : Src} {x y : Str} (hgood : ∀ p ∈ src.pieces, gapOk false p.gap = true ∧ Good p.k) (ht : TailOk src.tail)
    (e : src.text = x ++ y) (hx : x = [] ∨ ∃ q, x = q ++ ['\n']) (hn : ¬ InsideToken src (blen x)) (h0 : src.pieces = [] ∨ bs[0]? = some true) :
    GapPlace bs src (blen x) ∧ ∀ c ∈ y.takeWhile (fun c => isWs c && c ≠ '\n'), isBlank c = true := by
  obtain ⟨ps, tail⟩ := src
  simp only at hgood ht h0
  have e' : piecesText ps ++ tail = x ++ y := e
  have lastNl : ∀ {a : List Piece} {g : Str}, x = piecesText a ++ g → g ≠ [] → ∃ g', g = g' ++ ['\n'] := by
    intro a g hxa hg
    rcases hx with rfl | ⟨q, rfl⟩
    · have := congrArg List.length hxa
      cases g with
      | nil => exact absurd rfl hg
      | cons c g => simp at this
    · have := congrArg List.getLast? hxa
      rw [List.getLast?_concat, List.getLast?_append] at this
      cases hl : g.getLast? with
      | none => rw [List.getLast?_eq_none_iff] at hl; exact absurd hl hg
      | some c =>
        rw [hl] at this
        cases this
        exact List.getLast?_eq_some_iff.mp hl
  rcases split_pieces ps tail x y e' with ⟨a, g1, g2, k, b, rfl, hxa⟩ | ⟨a, p, b, t1, t2, rfl, h5, h6, h7, rfl⟩ | ⟨g1, g2, rfl, hxa⟩
  · obtain ⟨hok, hgk⟩ := hgood ⟨g1 ++ g2, k⟩ (by simp)
    simp only at hok hgk
    have ok1 : gapOk false g1 = true := by
      by_cases hg : g1 = []
      · subst hg; rfl
      · obtain ⟨g', rfl⟩ := lastNl hxa hg
        rw [List.append_assoc] at hok
        exact gapOk_cut hok
    refine ⟨.inl ⟨a, g1, g2, k, b, rfl, by rw [hxa], ok1, ?_⟩, ?_⟩
    · by_cases hg : g1 = []
      · subst hg
        rcases List.eq_nil_or_concat a with rfl | ⟨a', p, rfl⟩
        · rcases h0 with h0 | h0
          · cases h0
          · exact .inr h0
        · exfalso
          rw [List.concat_eq_append, List.append_nil] at hxa
          rcases hx with rfl | ⟨q, rfl⟩
          · have hgp := (hgood p (by simp)).2
            obtain ⟨t, c, h1, _⟩ := (good_edges hgp).2
            have := congrArg List.length hxa
            simp [piecesText_append, piecesText, h1] at this
          · exact ends_with_token (hgood p (by simp)).2 hxa.symm
      · obtain ⟨g', rfl⟩ := lastNl hxa hg
        exact .inl (by simp)
    · have hy : y = g2 ++ (k.text ++ (piecesText b ++ tail)) := by
        rw [hxa] at e'
        simp only [piecesText_append, piecesText, List.append_assoc] at e'
        exact (List.append_cancel_left (List.append_cancel_left e')).symm
      rw [hy]
      refine ws_gap_blank (by rw [gapOk_append ok1] at hok; exact hok) fun c hc => (good_edges hgk).1 c ?_
      obtain ⟨t, d, h1, _⟩ := (good_edges hgk).2
      rw [List.head?_append] at hc
      cases hk : k.text.head? with
      | none => rw [List.head?_eq_none_iff] at hk; rw [h1] at hk; simp at hk
      | some w => rw [hk] at hc; exact hc
  · refine absurd ⟨a, p, b, rfl, ?_, ?_⟩ hn
    · have := blen_pos h6
      simp only [blen_append]; omega
    · have := blen_pos h7
      simp only [blen_append, h5]; omega
  · have ok1 : gapOk false g1 = true := by
      by_cases hg : g1 = []
      · subst hg; rfl
      · obtain ⟨g', rfl⟩ := lastNl hxa hg
        have h2 : (gapRun false (g' ++ '\n' :: g2)).2 = [] := by
          have : g' ++ ['\n'] ++ g2 = g' ++ '\n' :: g2 := by simp
          rw [this] at ht
          rw [ht]
        exact tail_cut h2
    refine ⟨.inr ⟨g1, g2, rfl, by rw [hxa], ok1⟩, ?_⟩
    have hy : y = g2 := by
      rw [hxa, ← List.append_assoc] at e'
      exact (List.append_cancel_left e').symm
    rw [hy]
    refine ws_tail_blank ?_
    rw [tail_gap ok1] at ht
    rw [ht]

/-! ### Beginnings of nodes -/

/-- A token begins at this byte, and there may be line breaks in front of it. -/
def TokenPlace (bs : List Bool) (src : Src) (s : Nat) : Prop :=
  ∃ a q b, src.pieces = a ++ q :: b ∧ s = blen (piecesText a ++ q.gap) ∧ bs[a.length]? = some true

theorem token_gapPlace {bs : List Bool} {src : Src} {s : Nat} (hg : ∀ p ∈ src.pieces, gapOk false p.gap = true) (h : TokenPlace bs src s) : GapPlace bs src s := by
  obtain ⟨a, ⟨g, k⟩, b, h1, h2, h3⟩ := h
  exact .inl ⟨a, g, [], k, b, by rw [List.append_nil]; exact h1, h2.symm, hg ⟨g, k⟩ (by rw [h1]; simp), .inr h3⟩

theorem nodeStart_place {text : Str} {src : Src} {p : Node} {fs : List Frame} {e : Node} (hr : ReadsAs text src p) (hz : plug fs e = p) (hc : startsCode e = true) :
    TokenPlace (mayBreak p) src (nodeStart src fs e) := by
  obtain ⟨_, _, hw, htk⟩ := hr
  subst hz
  have hh := mayBreak_head e _ (WF_plug hw) hc
  obtain ⟨x, y, h1, h2⟩ := mayBreak_plug fs e
  cases hm : mayBreak e with
  | nil => rw [hm] at hh; cases hh
  | cons b m =>
    rw [hm] at hh h1
    cases hh
    have hl : src.pieces.length = (mayBreak (plug fs e)).length := by rw [mayBreak_length, htk]; simp [Src.toks, piecesToks]
    have hlt : x.length < src.pieces.length := by rw [hl, h1]; simp
    refine ⟨src.pieces.take x.length, src.pieces[x.length], src.pieces.drop (x.length + 1), ?_, ?_, ?_⟩
    · rw [← List.drop_eq_getElem_cons hlt, List.take_append_drop]
    · unfold nodeStart trimmedRange
      rw [← h2, List.drop_eq_getElem_cons hlt, List.head?_cons, blen_append]
      rfl
    · rw [List.length_take, Nat.min_eq_left (Nat.le_of_lt hlt), h1]
      simp

theorem params_args {fs : List Frame} {e : Node} (hw : WF .top (plug fs e)) (h : inParams fs = true) : isArgs e = true := by
  cases fs with
  | nil => cases h
  | cons f fs =>
    have h1 := WF_plug (fs := fs) (e := f.fill e) hw
    cases f <;> try cases h
    · exact h1.1
    · exact h1.2.2.2.1

theorem param_code {fs : List Frame} {e : Node} (hw : WF .top (plug fs e)) (h : isParam fs e = true) : startsCode e = true := by
  have key : isArgs e = true → isParam fs e = true → startsCode e = true := by
    intro h1 h2
    cases e
    case hole => exact absurd h2 (by simp [isParam])
    case comma => exact absurd h2 (by simp [isParam])
    case snil => cases h1
    case scons => cases h1
    all_goals rfl
  cases fs with
  | nil => cases e <;> cases h
  | cons f fs =>
    have h1 := WF_plug (fs := fs) (e := f.fill e) hw
    cases f
    case commaA g r =>
      refine key ?_ h
      have := h1.1
      cases e <;> first | rfl | cases this
    all_goals
      refine key (params_args hw ?_) h
      cases e <;> first | exact h | cases h

theorem chain_places {text : Str} {src : Src} {p : Node} (hr : ReadsAs text src p) : ∀ (fs : List Frame) (e : Node), plug fs e = p →
    ∀ n ∈ placeChain src fs e, n.meaningful = true → TokenPlace (mayBreak p) src n.start := by
  have info : ∀ (fs : List Frame) (e : Node), plug fs e = p → ∀ n ∈ placeInfo src fs e, n.meaningful = true → TokenPlace (mayBreak p) src n.start := by
    intro fs e hz n hn hm
    unfold placeInfo at hn
    rcases List.mem_cons.mp hn with rfl | hn
    · refine nodeStart_place hr hz ?_
      simp only at hm
      cases e <;> first | rfl | cases hm
    · split at hn
      · rename_i hp
        rw [List.mem_singleton] at hn
        subst hn
        exact nodeStart_place hr hz (param_code (by rw [hz]; exact hr.2.2.1) hp)
      · cases hn
  intro fs
  induction fs with
  | nil => intro e hz n hn hm; exact info [] e hz n hn hm
  | cons f fs ih =>
    intro e hz n hn hm
    rw [placeChain] at hn
    rcases List.mem_append.mp hn with hn | hn
    · exact info _ e hz n hn hm
    · exact ih _ hz n hn hm

theorem walkUp_places {source : Str} {d : Nat} {P : Nat → Prop} {l : List AncestorInfo} {a b : Option Nat} {p : InsertPoint} (h : walkUp source d l a b = some p)
    (ha : ∀ s, a = some s → P s) (hb : ∀ s, b = some s → P s ∧ isOnOwnLine source s = some true) (hl : ∀ n ∈ l, n.meaningful = true → P n.start) :
    (∃ s, P s ∧ isOnOwnLine source s = some true ∧ lineStartPoint source s = some p) ∨ (∃ s, P s ∧ inlinePoint source s = some p) ∨
    (a = none ∧ b = none ∧ (∀ n ∈ l, n.meaningful = true → n.controlFlow = true ∧ isOnOwnLine source n.start = some false) ∧ lineStartPoint source d = some p) := by
  induction l generalizing a b with
  | nil =>
    unfold walkUp at h
    split at h
    · exact .inl ⟨_, (hb _ rfl).1, (hb _ rfl).2, h⟩
    · split at h
      · exact .inr (.inl ⟨_, ha _ rfl, h⟩)
      · exact .inr (.inr ⟨rfl, rfl, by simp, h⟩)
  | cons n rest ih =>
    have hl' : ∀ n ∈ rest, n.meaningful = true → P n.start := fun m hm => hl m (List.mem_cons_of_mem _ hm)
    unfold walkUp at h
    split at h
    · rename_i hm
      have hp := hl n (List.mem_cons_self ..) hm
      split at h
      · cases h
      · rename_i own ho
        split at h
        · rename_i hcf
          split at h
          · split at h
            · cases h
            · exact .inl ⟨_, ha _ rfl, by assumption, h⟩
            · exact .inr (.inl ⟨_, ha _ rfl, h⟩)
          · split at h
            · rename_i hown; subst hown; exact .inl ⟨_, hp, ho, h⟩
            · rename_i hown
              rcases ih h ha hb hl' with h1 | h1 | ⟨h1, h2, h3, h4⟩
              · exact .inl h1
              · exact .inr (.inl h1)
              · refine .inr (.inr ⟨h1, h2, ?_, h4⟩)
                intro m hmm hmg
                rcases List.mem_cons.mp hmm with rfl | hmm
                · exact ⟨hcf, by rw [ho]; simpa using hown⟩
                · exact h3 m hmm hmg
        · rcases ih h (by intro s hs; cases hs; exact hp) (by
            intro s hs
            split at hs
            · rename_i hown
              cases hs
              rw [Bool.and_eq_true] at hown
              exact ⟨hp, by rw [ho, hown.1]⟩
            · exact hb s hs) hl' with h1 | h1 | ⟨h1, _⟩
          · exact .inl h1
          · exact .inr (.inl h1)
          · cases h1
    · rename_i hm
      rcases ih h ha hb hl' with h1 | h1 | ⟨h1, h2, h3, h4⟩
      · exact .inl h1
      · exact .inr (.inl h1)
      · refine .inr (.inr ⟨h1, h2, ?_, h4⟩)
        intro m hmm hmg
        rcases List.mem_cons.mp hmm with rfl | hmm
        · exact absurd hmg hm
        · exact h3 m hmm hmg

/-- Two tokens: the first one ends where the second one begins, or before. -/
theorem token_order {src : Src} {a b a' b' : List Piece} {q p : Piece} (h : src.pieces = a ++ q :: b) (h' : src.pieces = a' ++ p :: b')
    (hlt : blen (piecesText a' ++ p.gap) < blen (piecesText a ++ q.gap)) : blen (piecesText a' ++ p.gap ++ p.k.text) ≤ blen (piecesText a ++ q.gap) := by
  rw [h] at h'
  rcases List.append_eq_append_iff.mp h' with ⟨as, e1, e2⟩ | ⟨as, e1, e2⟩
  · exfalso
    cases as with
    | nil =>
      rw [List.nil_append] at e2
      cases e2
      rw [List.append_nil] at e1
      subst e1
      omega
    | cons x as =>
      rw [List.cons_append] at e2
      cases e2
      subst e1
      simp only [piecesText_append, piecesText, blen_append] at hlt
      omega
  · cases as with
    | nil =>
      rw [List.nil_append] at e2
      cases e2
      rw [List.append_nil] at e1
      subst e1
      omega
    | cons x as =>
      rw [List.cons_append] at e2
      cases e2
      subst e1
      simp only [piecesText_append, piecesText, blen_append]
      omega

theorem start_outside {bs : List Bool} {src : Src} {s : Nat} (h : TokenPlace bs src s) : ¬ InsideToken src s := by
  rintro ⟨a', p, b', h1, h2, h3⟩
  obtain ⟨a, q, b, h4, rfl, _⟩ := h
  have := token_order h4 h1 h2
  omega

theorem own_line_outside {bs : List Bool} {src : Src} {s : Nat} {pt : InsertPoint} (hgood : ∀ p ∈ src.pieces, Good p.k) (hs : TokenPlace bs src s)
    (ho : isOnOwnLine src.text s = some true) (hp : lineStartPoint src.text s = some pt) : ¬ InsideToken src pt.offset := by
  rintro ⟨a', p, b', h1, h2, h3⟩
  obtain ⟨a, q, b, h4, hs, _⟩ := hs
  obtain ⟨pre, line, rest, e1, e2, e3, e4, e5, _⟩ := lineStartPoint_spec hp
  rw [e5] at h2 h3
  have hle : blen pre ≤ s := by rw [e4, blen_append]; omega
  have hend := token_order h4 h1 (by omega)
  rw [← hs, e4] at hend
  have ws : line.all isWs = true := by
    unfold isOnOwnLine at ho
    split at ho
    · exfalso; omega
    · rw [splitAtByte_iff.mpr ⟨e1, e4.symm⟩] at ho
      simp only at ho
      rcases e2 with rfl | ⟨r, rfl⟩
      · have : splitLast '\n' ([] ++ line) = none := splitLast_none.mpr e3
        rw [this] at ho
        simpa using ho
      · have : splitLast '\n' (r ++ ['\n'] ++ line) = some (r, line) := splitLast_iff.mpr ⟨by simp, e3⟩
        rw [this] at ho
        simpa using ho
  have e6 : src.text = (piecesText a' ++ p.gap ++ p.k.text) ++ (piecesText b' ++ src.tail) := by
    simp [Src.text, h1, piecesText_append, piecesText]
  have e7 : (piecesText a' ++ p.gap ++ p.k.text) ++ (piecesText b' ++ src.tail) = pre ++ (line ++ rest) := by rw [← e6, e1]; simp
  obtain ⟨u, e8, e9⟩ := gap_prefix e7 (by omega)
  obtain ⟨v, e10, _⟩ := gap_prefix e9 (by
    rw [e8] at hend
    simp only [blen_append] at hend; omega)
  obtain ⟨t, c, e11, e12⟩ := (good_edges (hgood p (by rw [h1]; simp))).2
  have hu : u ≠ [] := by
    rintro rfl
    rw [List.append_nil] at e8
    rw [e8] at h3
    omega
  have : u.getLast? = some c := by
    have := congrArg List.getLast? e8
    rw [e11, ← List.append_assoc, List.getLast?_concat, List.getLast?_append] at this
    cases hl : u.getLast? with
    | none => rw [List.getLast?_eq_none_iff] at hl; exact absurd hl hu
    | some c' => rw [hl] at this; simpa using this.symm
  have hm : c ∈ line := by rw [e10]; exact List.mem_append_left _ (List.mem_of_getLast? this)
  rw [List.all_eq_true.mp ws c hm] at e12
  cases e12

end Jarl

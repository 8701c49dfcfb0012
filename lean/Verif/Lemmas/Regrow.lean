import Verif.Lemmas.Regap
import Verif.Props.RTextMain
/-!
# Lemmas: more text between the tokens of a program
-/
namespace Jarl
open Spec

/-! ### Tokens are as long as possible -/

theorem nsName_maximal {pkg : Str} {i : Bool} {s : Str} {k : TK} {r : Str} (h : nsName pkg i s = some (k, r)) {c d : Char} (hc : k.text.getLast? = some c) (hw : isWordChar c = true)
    (hd : r.head? = some d) : isWordChar d = false := by
  cases s with
  | nil => cases h
  | cons x s =>
    simp only [nsName] at h
    split at h
    · rename_i hq
      obtain ⟨⟨a, r0⟩, g1, g2⟩ := Option.map_eq_some_iff.mp h
      cases g2
      obtain ⟨_, e2, _⟩ := quoted_inv _ _ g1
      have hx : c = x := by
        simp only [TK.text, List.getLast?_append, List.getLast?_cons, e2] at hc
        simpa using hc.symm
      subst hx
      simp only [isQuote, Bool.or_eq_true, decide_eq_true_eq] at hq
      rcases hq with (rfl | rfl) | rfl <;> exact absurd hw (by decide)
    · split at h
      · cases h
      · cases h; exact dropWhile_head_not _ _ d hd

theorem munch_maximal {st : Stack} {s : Str} {k : TK} {r : Str} (h : munch st s = some (k, r)) {c d : Char} (hc : k.text.getLast? = some c) (hw : isWordChar c = true)
    (hd : r.head? = some d) : isWordChar d = false := by
  cases s with
  | nil => cases h
  | cons x s =>
    simp only [munch] at h
    split at h
    · split at h
      · exact (number_inv h).2.1 d hd
      · unfold Spec.word at h
        simp only at h
        have hdw := dropWhile_head_not isWordChar (x :: s)
        split at h
        · cases h; exact hdw d hd
        · split at h
          · cases h
          · split at h
            · split at h
              · cases h
              · cases h; exact hdw d hd
            · split at h
              · cases h
              · cases h; exact hdw d hd
            · split at h
              · exact nsName_maximal h hc hw hd
              · cases h
            · split at h
              · exact nsName_maximal h hc hw hd
              · cases h
            · cases h; exact hdw d hd
    · split at h
      · rename_i hq
        obtain ⟨⟨a, r0⟩, g1, g2⟩ := Option.map_eq_some_iff.mp h
        cases g2
        obtain ⟨_, e2, _⟩ := quoted_inv _ _ g1
        have ht : ∀ y, (TK.atom (if x = '`' then .id else .str) y).text = y := by intro y; split <;> rfl
        rw [ht, List.getLast?_cons, e2] at hc
        cases hc
        simp only [isQuote, Bool.or_eq_true, decide_eq_true_eq] at hq
        rcases hq with (rfl | rfl) | rfl <;> exact absurd hw (by decide)
      · split at h
        · obtain ⟨⟨a, r0⟩, g1, g2⟩ := Option.map_eq_some_iff.mp h
          cases g2
          rw [TK.text, special_last] at hc
          cases hc
          exact absurd hw (by decide)
        · split at h
          · split at h
            · split at h
              · cases h; cases hc; exact absurd hw (by decide)
              · cases h
            · cases h; cases hc; exact absurd hw (by decide)
          · rename_i hnw _ _ _
            obtain ⟨t, hm, hs⟩ := symbol_inv _ h
            have htx := (symbol_text hm).1
            rw [htx] at hc
            exfalso
            simp only [symbols, List.mem_cons, Prod.mk.injEq, Option.some.injEq, List.not_mem_nil, or_false, reduceCtorEq, and_false, false_or] at hm
            rcases hm with h | h | h | h | h | h | h | h | h | h | h | h | h | h | h | h | h | h | h | h | h | h | h | h | h | h | h | h | h | h | h | h | h | h | h <;>
              (obtain ⟨rfl, rfl⟩ := h; cases hc; exact absurd hw (by decide))

theorem munch_lt {st : Stack} {s r : Str} (h : munch st s = some (.op .lt, r)) : r.head? ≠ some '-' := by
  intro hd
  obtain ⟨e, _⟩ := munch_inv h
  cases r with
  | nil => cases hd
  | cons c r =>
    cases hd
    rw [e] at h
    have : munch st ((TK.op .lt).text ++ '-' :: r) = some (.op .assign, r) := by
      show munch st ('<' :: '-' :: r) = _
      simp [munch, isWordChar, isQuote, symbol, symbols, stripPrefix]
    rw [this] at h
    cases h

/-- Tokens with nothing between them do not grow together. -/
def Unglued : Option TK → List Piece → Prop
  | _, [] => True
  | prev, p :: ps => (p.gap = [] → ∀ k, prev = some k → ¬ Glued k p.k) ∧ Unglued (some p.k) ps

theorem lexN_unglued : ∀ (n : Nat) (st : Stack) (s : Str) (src : Src), lexN n st s = some src → (∀ p qs, src.pieces = p :: qs → Steps p.k (piecesToks qs)) → Unglued none src.pieces := by
  intro n
  induction n with
  | zero => intro st s src h; cases h
  | succ n ih =>
    intro st s src h hs
    simp only [lexN] at h
    split at h
    · cases h; trivial
    · split at h
      · cases h
      · rename_i k r' hm
        split at h
        · cases h
        · rename_i st' hb
          obtain ⟨src', h1, h2⟩ := Option.map_eq_some_iff.mp h
          cases h2
          have hst := hs _ _ rfl
          obtain ⟨ht, hg, _⟩ := lexN_inv _ _ _ _ h1
          have hu := ih _ _ _ h1 (by intro q qs e; rw [e] at hst; exact hst.2)
          refine ⟨(by intro _ k hk; cases hk), ?_⟩
          cases hp : src'.pieces with
          | nil => trivial
          | cons q qs =>
            rw [hp] at hu hst hg
            refine ⟨?_, hu.2⟩
            intro hgap k' hk'
            cases hk'
            intro hgl
            obtain ⟨_, hgq⟩ := hg q (List.mem_cons_self ..)
            have hal : allowed k q.k = true := hst.1 (by simp [hgap, gapOf_nil, Gap.nl])
            have hseam := seam_of_allowed (munch_inv hm).2.1 hgq.1 hal hgl
            obtain ⟨c, d, hc, hd, hcd⟩ := hgl
            have hrd : r'.head? = some d := by
              rw [← ht, Src.text, hp]
              obtain ⟨x, y, e, _⟩ := good_head hgq
              rw [e] at hd
              simp [piecesText, hgap, e]
              simpa using hd
            have hmax := fun hw => munch_maximal hm hc hw hrd
            have kw : ∀ w : Str, (∀ x, w.getLast? = some x → isWordChar x = true) → k.text = w → False := by
              intro w hw e
              have hcw := hw c (by rw [← e]; exact hc)
              have := hmax hcw
              rcases glued_cases hcd with ⟨_, h⟩ | ⟨h, _⟩
              · rw [this] at h; cases h
              · rw [sym_not_word h] at hcw; cases hcw
            have kw2 : isWordChar d = true → False := by
              intro hdw
              rcases glued_cases hcd with ⟨h, _⟩ | ⟨_, h⟩
              · rw [hmax h] at hdw; cases hdw
              · rw [sym_not_word h] at hdw; cases hdw
            rcases hseam with e | e | e | e | e | e
            · exact kw (cs! "else") (by intro x hx; cases hx; decide) (by rw [e]; rfl)
            · exact kw (cs! "in") (by intro x hx; cases hx; decide) (by rw [e]; rfl)
            · exact kw (cs! "repeat") (by intro x hx; cases hx; decide) (by rw [e]; rfl)
            · rw [e] at hm hc hal
              cases hc
              have hnd := munch_lt hm
              rw [hrd] at hnd
              have : q.k = .op .minus ∨ d ≠ '-' := by
                by_cases hdm : d = '-'
                · subst hdm; exact absurd rfl hnd
                · exact .inr hdm
              have hcd' : d = '<' ∨ d = '=' := by
                simp [gluedChars, isWordChar] at hcd
                rcases hcd with rfl | rfl | rfl
                · exact absurd rfl hnd
                · exact .inl rfl
                · exact .inr rfl
              cases hk : q.k with
              | op o =>
                rw [hk] at hal hd
                have hun : (unLevel o).isSome = true := hal
                rcases un_head hun with rfl | rfl | rfl | rfl <;> (cases hd; rcases hcd' with h | h <;> cases h)
              | atom a s =>
                obtain ⟨c1, _, g1, _, g3, _⟩ := (hk ▸ hgq).1
                rw [hk, g1] at hd
                cases hd
                rcases hcd' with rfl | rfl <;> exact absurd g3 (by decide)
              | «open» b => rw [hk] at hd; cases b <;> (cases hd; rcases hcd' with h | h <;> cases h)
              | close b => rw [hk] at hd; cases b <;> (cases hd; rcases hcd' with h | h <;> cases h)
              | fn b => rw [hk] at hd; cases b <;> (cases hd; rcases hcd' with h | h <;> cases h)
              | ext b => rw [hk] at hd; cases b <;> (cases hd; rcases hcd' with h | h <;> cases h)
              | _ => rw [hk] at hd; cases hd; rcases hcd' with h | h <;> cases h
            · rw [e] at hd; cases hd; exact kw2 (by decide)
            · rw [e] at hd; cases hd; exact kw2 (by decide)

theorem stops_unglued {k : TK} {ps : List Piece} {tail : Str} (h : ∀ p ∈ ps, gapOk false p.gap = true ∧ Good p.k) (ha : Unglued (some k) ps) (hs : Steps k (piecesToks ps))
    (ht : TailOk tail) : Stops k (piecesText ps ++ tail) := by
  cases ps with
  | nil => exact stops_blank (fun d hd => tail_head ht hd)
  | cons q ps =>
    obtain ⟨h1, h2⟩ := h q (List.mem_cons_self ..)
    by_cases hg : q.gap = []
    · have hal : allowed k q.k = true := hs.1 (by simp [hg, gapOf_nil, Gap.nl])
      have hng := ha.1 hg k rfl
      obtain ⟨c0, s0, e0, hc0⟩ := good_head h2
      have htx : piecesText (q :: ps) ++ tail = c0 :: (s0 ++ (piecesText ps ++ tail)) := by simp [piecesText, hg, e0]
      rw [htx]
      refine ⟨fun c d hc hd => ?_, fun a s e d hd => ?_, fun r' e => ?_⟩
      · cases hd
        cases hgl : gluedChars c c0 with
        | false => rfl
        | true => exact absurd ⟨c, c0, hc, by rw [e0]; rfl, hgl⟩ hng
      · cases hd
        cases hq : isQuote c0 with
        | false => rfl
        | true =>
          obtain ⟨a', s', e'⟩ := quote_head (by rw [e0]; rfl) hq
          rw [e, e'] at hal
          cases hal
      · simp only [List.cons.injEq] at e
        have hq := colon_head h2 (by rw [e0, e.1]; rfl)
        rw [hq] at e0
        cases e0
        rw [List.nil_append] at e
        have e2 := e.2
        cases ps with
        | nil =>
          have := tail_head ht (d := ':') (by
            simp only [piecesText, List.nil_append] at e2; rw [e2]; rfl)
          exact absurd this (by decide)
        | cons q2 ps =>
          obtain ⟨g1, g2⟩ := h q2 (by simp)
          by_cases hg2 : q2.gap = []
          · have hal2 : allowed q.k q2.k = true := hs.2.1 (by simp [hg2, gapOf_nil, Gap.nl])
            obtain ⟨c1, s1, e1, _⟩ := good_head g2
            simp only [piecesText, hg2, e1, List.nil_append, List.cons_append, List.cons.injEq] at e2
            rw [hq, colon_head g2 (by rw [e1, e2.1]; rfl)] at hal2
            cases hal2
          · obtain ⟨x, t, ex⟩ := List.exists_cons_of_ne_nil hg2
            have := gapOk_head g1 (d := x) (by rw [ex]; rfl)
            simp only [piecesText, ex, List.cons_append, List.cons.injEq] at e2
            rw [e2.1] at this
            exact absurd this (by decide)
    · obtain ⟨x, t, ex⟩ := List.exists_cons_of_ne_nil hg
      refine stops_blank fun d hd => ?_
      simp only [piecesText, ex, List.cons_append, List.head?_cons, Option.some.injEq] at hd
      subst hd
      exact gapOk_head h1 (by rw [ex]; rfl)

theorem lexN_unglued_pieces : ∀ (ps : List Piece) (n : Nat) (st : Stack) (tail : Str) (prev : Option TK), ps.length < n → (∀ p ∈ ps, gapOk false p.gap = true ∧ Good p.k) → Unglued prev ps →
    (∀ p qs, ps = p :: qs → Steps p.k (piecesToks qs)) → Bal st (piecesToks ps) → TailOk tail → lexN n st (piecesText ps ++ tail) = some ⟨ps, tail⟩ := by
  intro ps
  induction ps with
  | nil =>
    intro n st tail prev hn _ _ _ _ ht
    obtain ⟨n, rfl⟩ : ∃ m, n = m + 1 := ⟨n - 1, by simp at hn; omega⟩
    have : gapRun false tail = (tail, []) := ht
    simp [lexN, piecesText, this]
  | cons p ps ih =>
    intro n st tail prev hn h ha hs hb ht
    obtain ⟨n, rfl⟩ : ∃ m, n = m + 1 := ⟨n - 1, by simp at hn; omega⟩
    obtain ⟨h1, h2⟩ := h p (List.mem_cons_self ..)
    have h' := fun q hq => h q (List.mem_cons_of_mem _ hq)
    obtain ⟨st', hb1, hb2⟩ := hb
    have hst := hs p ps rfl
    have hm := munch_good h2 hb1 (stops_unglued h' ha.2 hst ht)
    obtain ⟨c, s, e, hc⟩ := good_head h2
    have hgr : gapRun false (p.gap ++ (p.k.text ++ (piecesText ps ++ tail))) = (p.gap, p.k.text ++ (piecesText ps ++ tail)) := by
      refine gapRun_append h1 fun d hd => ?_
      rw [e] at hd; cases hd; exact hc
    have htx : piecesText (p :: ps) ++ tail = p.gap ++ (p.k.text ++ (piecesText ps ++ tail)) := by simp [piecesText]
    rw [htx]
    simp only [lexN, hgr]
    rw [if_neg (by rw [e]; simp)]
    simp only [hm, hb1]
    rw [ih n st' tail (some p.k) (by simp at hn; omega) h' ha.2 (by intro q qs e; subst e; exact hst.2) hb2 ht]
    rfl

/-! ### Larger gaps -/

/-- The same tokens with larger gaps; new line breaks only where they may be. -/
inductive Grown : List Bool → List Piece → List Piece → Prop
  | nil : Grown [] [] []
  | cons {b bs} {p p' : Piece} {ps ps'} : p'.k = p.k → (p'.gap = [] → p.gap = []) → ('\n' ∈ p.gap → '\n' ∈ p'.gap) → ('\n' ∈ p'.gap → '\n' ∈ p.gap ∨ b = true) →
      gapOk false p'.gap = true → Grown bs ps ps' → Grown (b :: bs) (p :: ps) (p' :: ps')

theorem grown_regap {bs ps ps'} (h : Grown bs ps ps') : Regap bs (piecesToks ps) (piecesToks ps') := by
  induction h with
  | nil => exact .nil
  | @cons b bs p p' ps ps' h1 _ h3 h4 _ _ ih =>
    refine .cons h1 ?_ ?_ ih
    · simp only [(C66_gaps _).1]; exact h3
    · simp only [(C66_gaps _).1]; exact h4

theorem grown_unglued {bs ps ps'} (h : Grown bs ps ps') : ∀ {prev}, Unglued prev ps → Unglued prev ps' := by
  induction h with
  | nil => exact id
  | @cons b bs p p' ps ps' h1 h2 _ _ _ _ ih =>
    intro prev hu
    refine ⟨fun hg k hk => ?_, ?_⟩
    · rw [h1]; exact hu.1 (h2 hg) k hk
    · rw [h1]; exact ih hu.2

theorem grown_good {bs ps ps'} (h : Grown bs ps ps') (hg : ∀ p ∈ ps, Good p.k) : ∀ p ∈ ps', gapOk false p.gap = true ∧ Good p.k := by
  induction h with
  | nil => simp
  | @cons b bs p p' ps ps' h1 h2 _ _ h5 _ ih =>
    intro q hq
    rcases List.mem_cons.mp hq with rfl | hq
    · exact ⟨h5, by rw [h1]; exact hg p (List.mem_cons_self ..)⟩
    · exact ih (fun x hx => hg x (List.mem_cons_of_mem _ hx)) q hq

theorem grown_refl : ∀ (bs : List Bool) (ps : List Piece), bs.length = ps.length → (∀ p ∈ ps, gapOk false p.gap = true) → Grown bs ps ps
  | [], [], _, _ => .nil
  | [], _ :: _, h, _ => by cases h
  | _ :: _, [], h, _ => by cases h
  | b :: bs, p :: ps, h, hg => .cons rfl id id .inl (hg p (List.mem_cons_self ..)) (grown_refl bs ps (by simpa using h) fun q hq => hg q (List.mem_cons_of_mem _ hq))

theorem grown_trans {bs ps ps' ps''} (h : Grown bs ps ps') (h' : Grown bs ps' ps'') : Grown bs ps ps'' := by
  induction h generalizing ps'' with
  | nil => cases h'; exact .nil
  | @cons b bs p p' ps ps' h1 h2 h3 h4 _ _ ih =>
    cases h' with
    | cons g1 g2 g3 g4 g5 g6 =>
      refine .cons (g1.trans h1) (fun e => h2 (g2 e)) (fun e => g3 (h3 e)) (fun e => ?_) g5 (ih g6)
      rcases g4 e with e | e
      · exact h4 e
      · exact .inr e

/-- With larger gaps the text is read as the same program. -/
theorem reads_grown {text : Str} {src : Src} {p : Node} {ps : List Piece} {tail : Str} (hr : ReadsAs text src p) (hg : Grown (mayBreak p) src.pieces ps) (ht : TailOk tail) :
    ∃ q, ReadsAs (piecesText ps ++ tail) ⟨ps, tail⟩ q ∧ ungapped q = ungapped p := by
  obtain ⟨hlex, hs, hw, htk⟩ := hr
  obtain ⟨_, hgood, _⟩ := lexN_inv _ _ _ _ hlex
  have steps_of : ∀ (n : Node) (l : List Piece), isStmts n = true → WF .top n → toks n = piecesToks l → ∀ q qs, l = q :: qs → Steps q.k (piecesToks qs) := by
    intro n l h1 h2 h3 q qs e
    have hst : Steps .semi (toks n ++ []) := (steps_expr n .top h2).2.2 h1 _ _ trivial (fun _ k hk => allowed_start trivial hk) (fun _ _ => trivial)
    rw [List.append_nil, h3, e] at hst
    exact hst.2
  have hu := lexN_unglued _ _ _ _ hlex (steps_of p _ hs hw htk)
  have hrg := grown_regap hg
  rw [show piecesToks src.pieces = toks p from htk.symm] at hrg
  obtain ⟨q, e1, e2, e3⟩ := regap_node p .top _ hw hrg
  have hsq : isStmts q = true := by rw [(same_shape e2).2.2.2.2.1]; exact hs
  refine ⟨q, ⟨?_, hsq, e3, e1⟩, e2⟩
  have hgood' := grown_good hg fun p hp => (hgood p hp).2
  have hlen : ∀ ps : List Piece, (∀ p ∈ ps, gapOk false p.gap = true ∧ Good p.k) → ps.length ≤ (piecesText ps).length := by
    intro ps
    induction ps with
    | nil => intro _; simp
    | cons q ps ih =>
      intro h
      have := ih fun p hp => h p (List.mem_cons_of_mem _ hp)
      obtain ⟨c, s, e, _⟩ := good_head (h q (List.mem_cons_self ..)).2
      simp only [piecesText, e, List.length_append, List.length_cons]
      omega
  have hb : Bal [] (toks q ++ []) := bal_toks q [] [] trivial
  rw [List.append_nil, e1] at hb
  refine lexN_unglued_pieces ps _ [] tail none ?_ hgood' (grown_unglued hg hu) (steps_of q _ hsq e3 e1) hb ht
  have := hlen _ hgood'
  simp only [List.length_append]
  omega

end Jarl

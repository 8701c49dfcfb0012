import Verif.Lemmas.RSeams
/-!
# Lemmas: the lexer
-/
namespace Jarl
open Spec

/-! ### Gaps -/

/-- Blanks, line breaks and comments, the last comment ended by a line break. -/
def gapOk : Bool → Str → Bool
  | inC, [] => !inC
  | true, c :: s => gapOk (c ≠ '\n') s
  | false, c :: s => if isBlank c || c = '\n' then gapOk false s else if c = '#' then gapOk true s else false

/-- A token can begin with this character. -/
def stopChar (c : Char) : Bool := !(isBlank c || c = '\n' || c = '#')

theorem gapRun_append {b : Bool} {g r : Str} (h : gapOk b g = true) (hr : ∀ c, r.head? = some c → stopChar c = true) : gapRun b (g ++ r) = (g, r) := by
  induction g generalizing b with
  | nil =>
    cases b
    · cases r with
      | nil => rfl
      | cons c r =>
        have := hr c rfl
        simp only [stopChar, Bool.not_eq_true', Bool.or_eq_false_iff, decide_eq_false_iff_not] at this
        simp [gapRun, this]
    · cases h
  | cons c g ih =>
    cases b
    · simp only [gapOk] at h
      simp only [List.cons_append, gapRun]
      split at h
      · rename_i hc; rw [if_pos hc, ih h]
      · rename_i hc
        rw [if_neg hc]
        split at h
        · rename_i hc2; rw [if_pos hc2, ih h]
        · cases h
    · simp only [gapOk] at h
      simp only [List.cons_append, gapRun, ih h]

theorem gapRun_inv {b : Bool} {s g r : Str} (h : gapRun b s = (g, r)) : s = g ++ r ∧ (r ≠ [] → gapOk b g = true ∧ ∃ c r', r = c :: r' ∧ stopChar c = true) := by
  induction s generalizing b g r with
  | nil => cases b <;> (simp only [gapRun, Prod.mk.injEq] at h; obtain ⟨rfl, rfl⟩ := h; exact ⟨rfl, fun h => absurd rfl h⟩)
  | cons c s ih =>
    cases b
    · simp only [gapRun] at h
      split at h
      · rename_i hc
        simp only [Prod.mk.injEq] at h
        obtain ⟨rfl, rfl⟩ := h
        obtain ⟨h1, h2⟩ := ih (b := false) rfl
        refine ⟨by rw [List.cons_append, ← h1], fun hr => ?_⟩
        obtain ⟨h3, h4⟩ := h2 hr
        exact ⟨by simp only [gapOk, hc, if_true]; exact h3, h4⟩
      · rename_i hc
        split at h
        · rename_i hc2
          simp only [Prod.mk.injEq] at h
          obtain ⟨rfl, rfl⟩ := h
          obtain ⟨h1, h2⟩ := ih (b := true) rfl
          refine ⟨by rw [List.cons_append, ← h1], fun hr => ?_⟩
          obtain ⟨h3, h4⟩ := h2 hr
          exact ⟨by rw [gapOk, if_neg hc, if_pos hc2]; exact h3, h4⟩
        · rename_i hc2
          simp only [Prod.mk.injEq] at h
          obtain ⟨rfl, rfl⟩ := h
          refine ⟨rfl, fun _ => ⟨rfl, c, s, rfl, ?_⟩⟩
          simp only [Bool.not_eq_true, Bool.or_eq_false_iff, decide_eq_false_iff_not] at hc
          simp [stopChar, hc, hc2]
    · simp only [gapRun, Prod.mk.injEq] at h
      obtain ⟨rfl, rfl⟩ := h
      obtain ⟨h1, h2⟩ := ih (b := decide (c ≠ '\n')) rfl
      refine ⟨by rw [List.cons_append, ← h1], fun hr => ?_⟩
      obtain ⟨h3, h4⟩ := h2 hr
      exact ⟨by simp only [gapOk]; exact h3, h4⟩

/-- What is behind the last token. -/
def TailOk (t : Str) : Prop := gapRun false t = (t, [])

theorem not_stop_cases {d : Char} (h : stopChar d = false) : d = ' ' ∨ d = '\t' ∨ d = '\r' ∨ d = '\x0c' ∨ d = '\n' ∨ d = '#' := by
  simp only [stopChar, isBlank, Bool.not_eq_false', Bool.or_eq_true, decide_eq_true_eq] at h
  rcases h with ((((h | h) | h) | h) | h) | h <;> simp [h]

theorem tail_head {t : Str} (h : TailOk t) {d : Char} (hd : t.head? = some d) : stopChar d = false := by
  cases t with
  | nil => cases hd
  | cons c t =>
    cases hd
    cases hs : stopChar d with
    | false => rfl
    | true =>
      have := gapRun_append (b := false) (g := []) (r := d :: t) rfl (by intro c hc; cases hc; exact hs)
      rw [List.nil_append, h] at this
      simp at this

theorem gapOk_head {g : Str} (h : gapOk false g = true) {d : Char} (hd : g.head? = some d) : stopChar d = false := by
  cases g with
  | nil => cases hd
  | cons c g =>
    cases hd
    simp only [gapOk] at h
    split at h
    · rename_i hc; simp [stopChar, hc]
    · split at h
      · rename_i hc; simp [stopChar, hc]
      · cases h

theorem not_stop_not_word {d : Char} (h : stopChar d = false) : isWordChar d = false := by
  rcases not_stop_cases h with h | h | h | h | h | h <;> subst h <;> decide

theorem not_stop_not_glued {c d : Char} (h : stopChar d = false) : gluedChars c d = false := by
  cases hg : gluedChars c d with
  | false => rfl
  | true =>
    rcases glued_cases hg with ⟨_, h2⟩ | ⟨_, h2⟩
    · rw [not_stop_not_word h] at h2; cases h2
    · rcases not_stop_cases h with h | h | h | h | h | h <;> subst h <;> exact absurd h2 (by decide)

theorem not_stop_not_quote {d : Char} (h : stopChar d = false) : isQuote d = false ∧ d ≠ ':' := by
  rcases not_stop_cases h with h | h | h | h | h | h <;> subst h <;> decide

/-! ### Quotes -/

theorem quoted_esc (q c : Char) (s : Str) : quoted q ('\\' :: c :: s) = (quoted q s).map fun (a, r) => ('\\' :: c :: a, r) := by
  rw [quoted]

theorem quoted_cons {q c : Char} (h : c ≠ '\\') (s : Str) : quoted q (c :: s) = if c = q then some ([c], s) else (quoted q s).map fun (a, r) => (c :: a, r) := by
  rw [quoted.eq_4 _ _ _ (by intro e; exact absurd e h) (by intro _ _ e; exact absurd e h)]

theorem quoted_inv (q : Char) (s : Str) : ∀ {a r}, quoted q s = some (a, r) → s = a ++ r ∧ a.getLast? = some q ∧ ∀ r', quoted q (a ++ r') = some (a, r') := by
  fun_induction quoted q s with
  | case1 => intro a r h; cases h
  | case2 => intro a r h; cases h
  | case3 c s ih =>
    intro a r h
    obtain ⟨⟨a', r'⟩, h1, h2⟩ := Option.map_eq_some_iff.mp h
    cases h2
    obtain ⟨e1, e2, e3⟩ := ih h1
    refine ⟨by rw [e1]; rfl, ?_, fun r' => ?_⟩
    · rw [List.getLast?_cons, List.getLast?_cons, e2]; rfl
    · rw [List.cons_append, List.cons_append, quoted_esc, e3]; rfl
  | case4 s _ h2 =>
    rename_i h1
    intro a r h
    cases h
    have hq : q ≠ '\\' := by
      intro e
      cases s with
      | nil => exact h1 e rfl
      | cons c s => exact h2 c s e rfl
    refine ⟨rfl, rfl, fun r' => ?_⟩
    rw [List.cons_append, quoted_cons hq, if_pos rfl]; rfl
  | case5 c s h1 h2 hne ih =>
    intro a r h
    obtain ⟨⟨a', r'⟩, g1, g2⟩ := Option.map_eq_some_iff.mp h
    cases g2
    obtain ⟨e1, e2, e3⟩ := ih g1
    have hc : c ≠ '\\' := by
      intro e
      cases s with
      | nil => exact h1 e rfl
      | cons d s => exact h2 d s e rfl
    refine ⟨by rw [e1]; rfl, ?_, fun r' => ?_⟩
    · rw [List.getLast?_cons, e2]; rfl
    · rw [List.cons_append, quoted_cons hc, if_neg hne, e3]; rfl

theorem percent_inv (s : Str) : ∀ {a r}, percent s = some (a, r) → s = a ++ '%' :: r ∧ ∀ r', percent (a ++ '%' :: r') = some (a, r') := by
  induction s with
  | nil => intro a r h; cases h
  | cons c s ih =>
    intro a r h
    rw [percent] at h
    split at h
    · rename_i hc; subst hc; cases h; exact ⟨rfl, fun r' => rfl⟩
    · rename_i hc
      split at h
      · cases h
      · rename_i hn
        obtain ⟨⟨a', r'⟩, g1, g2⟩ := Option.map_eq_some_iff.mp h
        cases g2
        obtain ⟨e1, e2⟩ := ih g1
        exact ⟨by rw [e1]; rfl, fun r' => by rw [List.cons_append, percent, if_neg hc, if_neg hn, e2]; rfl⟩

/-! ### Numbers -/

theorem numRun_one (hex : Bool) (c : Char) (h : isWordChar c = true) : numRun hex [c] = ([c], []) := by
  rw [numRun.eq_def]; simp only [if_pos h]

theorem numRun_two (hex : Bool) (c d : Char) (s : Str) (h : isWordChar c = true) : numRun hex (c :: d :: s) =
    if isExp hex c ∧ (d = '+' ∨ d = '-') then (c :: d :: (numRun hex s).1, (numRun hex s).2) else (c :: (numRun hex (d :: s)).1, (numRun hex (d :: s)).2) := by
  rw [numRun.eq_def]; simp only [if_pos h]

theorem numRun_stop (hex : Bool) (c : Char) (s : Str) (h : isWordChar c = false) : numRun hex (c :: s) = ([], c :: s) := by
  rw [numRun.eq_def]; simp only [h]; rfl

theorem numRun_inv (hex : Bool) : ∀ (n : Nat) (s : Str), s.length ≤ n → s = (numRun hex s).1 ++ (numRun hex s).2 ∧ (∀ d, (numRun hex s).2.head? = some d → isWordChar d = false) ∧
    (∀ c r, (numRun hex s).1.getLast? = some c → isWordChar c = true → isExp hex c = false → (∀ d, r.head? = some d → isWordChar d = false) →
      numRun hex ((numRun hex s).1 ++ r) = ((numRun hex s).1, r)) := by
  intro n
  induction n with
  | zero =>
    intro s hs
    cases List.eq_nil_of_length_eq_zero (Nat.le_zero.mp hs)
    exact ⟨rfl, fun d h => (by cases h), fun c r h => (by cases h)⟩
  | succ n ih =>
    intro s hs
    cases s with
    | nil => exact ⟨rfl, fun d h => (by cases h), fun c r h => (by cases h)⟩
    | cons c s =>
      by_cases hw : isWordChar c = true
      · cases s with
        | nil =>
          rw [numRun_one _ _ hw]
          refine ⟨rfl, fun d h => (by cases h), fun c' r h _ h2 h3 => ?_⟩
          cases h
          cases r with
          | nil => exact numRun_one _ _ hw
          | cons d r =>
            rw [List.cons_append, List.nil_append, numRun_two _ _ _ _ hw, if_neg (fun h => absurd (h2.symm.trans h.1) (by decide)), numRun_stop _ _ _ (h3 d rfl)]
        | cons d s =>
          rw [numRun_two _ _ _ _ hw]
          split
          · rename_i hx
            obtain ⟨e1, e0, e2⟩ := ih s (by simp at hs; omega)
            refine ⟨by rw [List.cons_append, List.cons_append, ← e1], e0, fun c' r h h1 h2 h3 => ?_⟩
            simp only [List.cons_append]
            rw [numRun_two _ _ _ _ hw, if_pos hx]
            rw [List.getLast?_cons, List.getLast?_cons] at h
            cases hl : (numRun hex s).1.getLast? with
            | none =>
              rw [hl] at h
              cases h
              rcases hx.2 with rfl | rfl
              · exact absurd (show isWordChar '+' = true from h1) (by decide)
              · exact absurd (show isWordChar '-' = true from h1) (by decide)
            | some c'' =>
              rw [hl] at h
              cases h
              rw [e2 _ r hl h1 h2 h3]
          · rename_i hx
            obtain ⟨e1, e0, e2⟩ := ih (d :: s) (by simp at hs ⊢; omega)
            refine ⟨by rw [List.cons_append, ← e1], e0, fun c' r h h1 h2 h3 => ?_⟩
            simp only [List.cons_append]
            rw [List.getLast?_cons] at h
            cases hl : (numRun hex (d :: s)).1.getLast? with
            | none =>
              rw [hl] at h
              cases h
              have : (numRun hex (d :: s)).1 = [] := List.getLast?_eq_none_iff.mp hl
              rw [this]
              cases r with
              | nil => exact numRun_one _ _ hw
              | cons d' r =>
                rw [List.nil_append, numRun_two _ _ _ _ hw, if_neg (fun h => absurd (h2.symm.trans h.1) (by decide)), numRun_stop _ _ _ (h3 d' rfl)]
            | some c'' =>
              rw [hl] at h
              cases h
              have hne : (numRun hex (d :: s)).1 ≠ [] := by intro e; rw [e] at hl; cases hl
              have e2' := e2 _ r hl h1 h2 h3
              revert e2' e1
              generalize (numRun hex (d :: s)).2 = R
              generalize hW : (numRun hex (d :: s)).1 = W at *
              intro e1 e2'
              cases W with
              | nil => exact absurd rfl hne
              | cons d' W =>
                cases e1
                rw [List.cons_append, numRun_two _ _ _ _ hw, if_neg hx, ← List.cons_append, e2']
      · have hw' : isWordChar c = false := by simpa using hw
        rw [numRun_stop _ _ _ hw']
        exact ⟨rfl, fun d h => (by cases h; exact hw'), fun c r h => (by cases h)⟩

theorem startsNumber_append {a : Str} (b : Str) (h : a ≠ []) (hb : ∀ d, b.head? = some d → isWordChar d = false) : startsNumber (a ++ b) = startsNumber a := by
  cases a with
  | nil => exact absurd rfl h
  | cons c a =>
    cases a with
    | nil =>
      cases b with
      | nil => rfl
      | cons d b =>
        have hd : d.isDigit = false := by
          have := hb d rfl
          simp only [isWordChar, Char.isAlphanum, Bool.or_eq_false_iff] at this
          exact this.1.1.1.2
        simp [startsNumber, hd]
    | cons d a => rfl

theorem startsNumber_prefix {a b : Str} (h : a ≠ []) (hn : startsNumber (a ++ b) = false) : startsNumber a = false := by
  cases a with
  | nil => exact absurd rfl h
  | cons c a =>
    cases a with
    | nil =>
      simp only [List.cons_append, List.nil_append, startsNumber, Bool.or_eq_false_iff] at hn ⊢
      simp [hn.1]
    | cons d a => exact hn

theorem hex_append {a : Str} (b : Str) (x : Char) (hx : isWordChar x = true) (h : a ≠ []) (hb : ∀ d, b.head? = some d → isWordChar d = false) :
    startsWith ['0', x] (a ++ b) = startsWith ['0', x] a := by
  cases a with
  | nil => exact absurd rfl h
  | cons c a =>
    cases a with
    | nil =>
      cases b with
      | nil => rfl
      | cons d b =>
        have hd := hb d rfl
        have hxd : x ≠ d := by intro e; rw [e, hd] at hx; cases hx
        simp only [startsWith, List.cons_append, List.nil_append, stripPrefix, if_neg hxd]
    | cons d a =>
      simp only [startsWith, List.cons_append, stripPrefix]
      split
      · split <;> rfl
      · rfl

theorem number_inv {s : Str} {k : TK} {r : Str} (h : number s = some (k, r)) :
    s = k.text ++ r ∧ (∀ d, r.head? = some d → isWordChar d = false) ∧ (∃ c, k.text.getLast? = some c ∧ isWordChar c = true) ∧ (∃ a w, k = .atom a w) ∧
      ∀ r', (∀ d, r'.head? = some d → isWordChar d = false) → number (k.text ++ r') = some (k, r') := by
  unfold number at h
  simp only at h
  generalize hh : (startsWith (cs! "0x") s || startsWith (cs! "0X") s) = hex at h
  obtain ⟨e1, e0, e2⟩ := numRun_inv hex _ s (Nat.le_refl _)
  generalize hW : (numRun hex s).1 = W at *
  generalize hR : (numRun hex s).2 = R at *
  cases hl : W.getLast? with
  | none => rw [hl] at h; cases h
  | some c =>
    rw [hl] at h
    simp only at h
    split at h
    · cases h
    · rename_i hc
      cases h
      simp only [Bool.or_eq_true, Bool.not_eq_true', not_or, Bool.not_eq_false, Bool.not_eq_true] at hc
      have htext : ∀ a, (TK.atom (if c = 'L' then .int else if c = 'i' then .complex else .double) a).text = a := by
        intro a; split
        · rfl
        · split <;> rfl
      have hWne : W ≠ [] := by intro e; rw [e] at hl; cases hl
      rw [htext]
      refine ⟨e1, e0, ⟨c, hl, hc.1⟩, ⟨_, _, rfl⟩, fun r' hr' => ?_⟩
      have hx : (startsWith (cs! "0x") (W ++ r') || startsWith (cs! "0X") (W ++ r')) = hex := by
        rw [hex_append _ _ (by decide) hWne hr', hex_append _ _ (by decide) hWne hr', ← hh, e1, hex_append _ _ (by decide) hWne e0, hex_append _ _ (by decide) hWne e0]
      unfold number
      simp only [hx]
      rw [e2 c r' hl hc.1 hc.2 hr']
      simp only [hl]
      rw [if_neg]
      simpa using hc

/-! ### Words -/

theorem wordSpan_append {p : Char → Bool} {w r : Str} (hw : ∀ c ∈ w, p c = true) (hr : ∀ d, r.head? = some d → p d = false) :
    (w ++ r).takeWhile p = w ∧ (w ++ r).dropWhile p = r := by
  induction w with
  | nil =>
    cases r with
    | nil => exact ⟨rfl, rfl⟩
    | cons d r => simp [hr d rfl]
  | cons c w ih =>
    obtain ⟨h1, h2⟩ := ih fun c hc => hw c (List.mem_cons_of_mem _ hc)
    simp [List.takeWhile_cons, List.dropWhile_cons, hw c (List.mem_cons_self ..), h1, h2]

theorem takeWhile_holds (p : Char → Bool) (s : Str) : ∀ c ∈ s.takeWhile p, p c = true := by
  induction s with
  | nil => simp
  | cons c s ih =>
    rw [List.takeWhile_cons]
    split
    · intro d hd
      rcases List.mem_cons.mp hd with rfl | hd
      · assumption
      · exact ih d hd
    · simp

theorem dropWhile_head_not (p : Char → Bool) (s : Str) : ∀ d, (s.dropWhile p).head? = some d → p d = false := by
  induction s with
  | nil => simp
  | cons c s ih =>
    rw [List.dropWhile_cons]
    split
    · exact ih
    · rename_i h; intro d hd; cases hd; simpa using h

theorem keyword_text {w : Str} {k : TK} (h : keyword w = some k) : k.text = w := by
  unfold keyword at h
  repeat' split at h
  all_goals first | (cases h; rename_i e; rw [e]; rfl) | cases h

theorem wordKind_text (w : Str) : (TK.atom (wordKind w) w).text = w := by
  have : ∀ p i, wordKind w ≠ .ns p i := by
    intro p i
    unfold wordKind
    repeat' split
    all_goals simp
  cases hk : wordKind w with
  | ns p i => exact absurd hk (this p i)
  | _ => rfl

theorem last_mem_word {w : Str} (h : ∀ c ∈ w, isWordChar c = true) (hne : w ≠ []) : ∃ c, w.getLast? = some c ∧ isWordChar c = true :=
  ⟨_, List.getLast?_eq_some_getLast hne, h _ (List.getLast_mem hne)⟩

theorem nsName_inv {pkg : Str} {i : Bool} {s : Str} {k : TK} {r : Str} (h : nsName pkg i s = some (k, r)) :
    ∃ t, k = .atom (.ns pkg i) t ∧ s = t ++ r ∧ (∃ d, t.getLast? = some d ∧ isEdgeChar d = true) ∧
      ∀ r', (∀ c d, t.getLast? = some c → isWordChar c = true → r'.head? = some d → isWordChar d = false) → nsName pkg i (t ++ r') = some (k, r') := by
  cases s with
  | nil => cases h
  | cons c s =>
    simp only [nsName] at h
    split at h
    · rename_i hq
      obtain ⟨⟨a, r0⟩, g1, g2⟩ := Option.map_eq_some_iff.mp h
      cases g2
      obtain ⟨e1, e2, e3⟩ := quoted_inv _ _ g1
      refine ⟨c :: a, rfl, by rw [e1]; rfl, ⟨c, by rw [List.getLast?_cons, e2]; rfl, ?_⟩, fun r' _ => ?_⟩
      · simp only [isQuote, Bool.or_eq_true, decide_eq_true_eq] at hq
        rcases hq with (rfl | rfl) | rfl <;> decide
      · simp only [List.cons_append, nsName, if_pos hq, e3]; rfl
    · rename_i hq
      split at h
      · cases h
      · rename_i hc
        cases h
        simp only [not_or] at hc
        have hall := takeWhile_holds isWordChar (c :: s)
        obtain ⟨d, hd, hwd⟩ := last_mem_word hall hc.1
        refine ⟨_, rfl, List.takeWhile_append_dropWhile.symm, ⟨d, hd, by simp [isEdgeChar, hwd]⟩, fun r' hr' => ?_⟩
        have hsp := wordSpan_append (r := r') hall (fun d' hd' => hr' d d' hd hwd hd')
        have hcw : isWordChar c = true := by
          cases hcw : isWordChar c with
          | true => rfl
          | false => exact absurd (by rw [List.takeWhile_cons, hcw]; rfl) hc.1
        have hcs : (c :: s).takeWhile isWordChar ++ r' = c :: (s.takeWhile isWordChar ++ r') := by
          rw [List.takeWhile_cons, hcw]; rfl
        rw [hcs] at hsp ⊢
        simp only [nsName, if_neg hq, hsp.1, hsp.2]
        rw [if_neg]
        simp only [not_or]
        exact hc

/-- The text behind a token does not make it longer. -/
def Stops (k : TK) (r : Str) : Prop :=
  (∀ c d, k.text.getLast? = some c → r.head? = some d → gluedChars c d = false) ∧ (∀ a s, k = .atom a s → ∀ d, r.head? = some d → isQuote d = false) ∧ (∀ r', r ≠ ':' :: ':' :: r')

theorem Stops.word {k : TK} {r : Str} (h : Stops k r) {c : Char} (hc : k.text.getLast? = some c) (hw : isWordChar c = true) : ∀ d, r.head? = some d → isWordChar d = false := by
  intro d hd
  have := h.1 c d hc hd
  simp only [gluedChars, hw, Bool.true_and, Bool.or_eq_false_iff] at this
  exact this.1

theorem word_plain {w r : Str} (hw : ∀ c ∈ w, isWordChar c = true) (hr : ∀ d, r.head? = some d → isWordChar d = false) (hk : keyword w = none) (h0 : w.head? ≠ some '_')
    (hq : ∀ d, r.head? = some d → isQuote d = false) (hc : ∀ r', r ≠ ':' :: ':' :: r') : Spec.word (w ++ r) = some (.atom (wordKind w) w, r) := by
  obtain ⟨h1, h2⟩ := wordSpan_append hw hr
  unfold Spec.word
  simp only [h1, h2, hk, if_neg h0]
  split
  · exact absurd (hq _ rfl) (by decide)
  · exact absurd (hq _ rfl) (by decide)
  · exact absurd rfl (hc _)
  · exact absurd rfl (hc _)
  · rfl

theorem word_inv {c : Char} {s' : Str} {k : TK} {r : Str} (hcw : isWordChar c = true) (h : Spec.word (c :: s') = some (k, r)) :
    c :: s' = k.text ++ r ∧ k.text ≠ [] ∧ GoodText k ∧ (∀ b, k ≠ .close b) ∧ ∀ r', Stops k r' → Spec.word (k.text ++ r') = some (k, r') := by
  have hall := takeWhile_holds isWordChar (c :: s')
  have hdr := dropWhile_head_not isWordChar (c :: s')
  have hs : (c :: s').takeWhile isWordChar ++ (c :: s').dropWhile isWordChar = c :: s' := List.takeWhile_append_dropWhile
  have hne : (c :: s').takeWhile isWordChar ≠ [] := by rw [List.takeWhile_cons, hcw]; simp
  have hhd : ((c :: s').takeWhile isWordChar).head? = some c := by rw [List.takeWhile_cons, hcw]; rfl
  unfold Spec.word at h
  simp only at h
  generalize (c :: s').takeWhile isWordChar = w at *
  generalize (c :: s').dropWhile isWordChar = r0 at *
  obtain ⟨l, hl, hlw⟩ := last_mem_word hall hne
  cases hk : keyword w with
  | some k' =>
    rw [hk] at h
    cases h
    have ht := keyword_text hk
    rw [ht]
    have hcl : ∀ b, k ≠ .close b := by
      intro b e
      subst e
      unfold keyword at hk
      repeat' split at hk
      all_goals cases hk
    refine ⟨hs.symm, hne, ?_, hcl, fun r' hr' => ?_⟩
    · cases k <;> first | trivial | skip
      unfold keyword at hk
      repeat' split at hk
      all_goals cases hk
    · obtain ⟨h1, h2⟩ := wordSpan_append hall (hr'.word (by rw [ht]; exact hl) hlw)
      unfold Spec.word
      simp only [h1, h2, hk]
  | none =>
    rw [hk] at h
    simp only at h
    split at h
    · cases h
    · rename_i h0
      have plain : some (TK.atom (wordKind w) w, r0) = some (k, r) → c :: s' = k.text ++ r ∧ k.text ≠ [] ∧ GoodText k ∧ (∀ b, k ≠ .close b) ∧
          ∀ r', Stops k r' → Spec.word (k.text ++ r') = some (k, r') := by
        intro h
        cases h
        rw [wordKind_text]
        refine ⟨hs.symm, hne, ?_, (by intro b e; cases e), fun r' hr' => ?_⟩
        · show ∃ c d, _
          rw [wordKind_text]
          exact ⟨c, l, hhd, hl, by simp [isEdgeChar, hcw], by simp [isEdgeChar, hlw]⟩
        · exact word_plain hall (hr'.word (by rw [wordKind_text]; exact hl) hlw) hk h0 (hr'.2.1 _ _ rfl) hr'.2.2
      have ns : ∀ (i : Bool) (col r1 : Str), r0 = col ++ r1 → col = (if i then cs! ":::" else cs! "::") → (i = false → ∀ r2, r1 ≠ ':' :: r2) → nsName w i r1 = some (k, r) →
          wordKind w = .id → c :: s' = k.text ++ r ∧ k.text ≠ [] ∧ GoodText k ∧ (∀ b, k ≠ .close b) ∧ ∀ r', Stops k r' → Spec.word (k.text ++ r') = some (k, r') := by
        intro i col r1 hr0 hcol hi hns hid
        obtain ⟨t, rfl, e1, ⟨d, hd, hde⟩, e3⟩ := nsName_inv hns
        have htx : (TK.atom (.ns w i) t).text = w ++ col ++ t := by rw [TK.text, hcol]
        have htl : (w ++ col ++ t).getLast? = some d := by rw [List.getLast?_append, hd]; rfl
        have hth : (w ++ col ++ t).head? = some c := by rw [List.append_assoc, List.head?_append, hhd]; rfl
        rw [htx]
        refine ⟨?_, ?_, ?_, (by intro b e; cases e), fun r' hr' => ?_⟩
        · rw [← hs, hr0, e1]; simp
        · intro e; rw [e] at hth; cases hth
        · show ∃ c d, _
          rw [htx]
          exact ⟨c, d, hth, htl, by simp [isEdgeChar, hcw], hde⟩
        · have h3 := e3 r' (fun x y hx hxw hy => hr'.word (by rw [htx, htl]; rw [hd] at hx; exact hx) hxw y hy)
          have hcolh : ∀ x, (col ++ (t ++ r')).head? = some x → isWordChar x = false := by
            intro x hx
            rw [hcol] at hx
            cases i <;> (cases hx; decide)
          obtain ⟨h1, h2⟩ := wordSpan_append (r := col ++ (t ++ r')) hall hcolh
          rw [List.append_assoc, List.append_assoc]
          unfold Spec.word
          simp only [h1, h2, hk, if_neg h0]
          subst hcol
          cases i with
          | true => simp only [if_true, List.cons_append, List.nil_append, hid, h3]
          | false =>
            have htc : ∀ r2, t ++ r' ≠ ':' :: r2 := by
              intro r2 e
              cases t with
              | nil => cases hd
              | cons x t =>
                rw [List.cons_append] at e
                simp only [List.cons.injEq] at e
                refine hi rfl (t ++ r) ?_
                rw [e1, e.1]; rfl
            simp only [Bool.false_eq_true, if_false, List.cons_append, List.nil_append]
            split <;> exact h3
      split at h
      · split at h
        · cases h
        · exact plain h
      · split at h
        · cases h
        · exact plain h
      · split at h
        · rename_i hid; exact ns true _ _ (by rfl) rfl (by intro e; cases e) h hid
        · cases h
      · rename_i r1 hno
        split at h
        · rename_i hid; exact ns false (cs! "::") r1 (by rfl) rfl (by intro _ r2 e; exact hno r2 (by rw [e])) h hid
        · cases h
      · exact plain h

/-! ### Symbols -/

theorem symbol_inv : ∀ (l : List (Str × Option TK)) {s : Str} {k : TK} {r : Str}, symbol l s = some (k, r) → ∃ t, (t, some k) ∈ l ∧ s = t ++ r := by
  intro l
  induction l with
  | nil => intro s k r h; cases h
  | cons a l ih =>
    intro s k r h
    obtain ⟨t, ko⟩ := a
    simp only [symbol] at h
    split at h
    · rename_i r0 hp
      obtain ⟨k', h1, h2⟩ := Option.map_eq_some_iff.mp h
      cases h2
      subst h1
      exact ⟨t, List.mem_cons_self .., stripPrefix_iff.mp hp⟩
    · obtain ⟨t', h1, h2⟩ := ih h
      exact ⟨t', List.mem_cons_of_mem _ h1, h2⟩

theorem symbol_append {k : TK} {t r : Str} (hm : (t, some k) ∈ symbols) (hs : Stops k r) : symbol symbols (t ++ r) = some (k, r) := by
  simp only [symbols, List.mem_cons, Prod.mk.injEq, Option.some.injEq, List.not_mem_nil, or_false, reduceCtorEq, and_false, false_or] at hm
  rcases hm with h | h | h | h | h | h | h | h | h | h | h | h | h | h | h | h | h | h | h | h | h | h | h | h | h | h | h | h | h | h | h | h | h | h | h <;> (
    obtain ⟨rfl, rfl⟩ := h
    cases r with
    | nil => rfl
    | cons d r =>
      have hg := hs.1 _ d rfl rfl
      simp only [gluedChars, Bool.or_eq_false_iff, List.contains_eq_mem, List.mem_cons, Prod.mk.injEq, decide_eq_false_iff_not, not_or, not_and, List.not_mem_nil] at hg
      have hg := hg.2
      simp at hg
      simp [symbol, symbols, stripPrefix, eq_comm, hg])

theorem symbol_text {k : TK} {t : Str} (hm : (t, some k) ∈ symbols) : k.text = t ∧ t ≠ [] ∧ GoodText k ∧ (∀ b, k = .close b → b = .par) := by
  simp only [symbols, List.mem_cons, Prod.mk.injEq, Option.some.injEq, List.not_mem_nil, or_false, reduceCtorEq, and_false, false_or] at hm
  rcases hm with h | h | h | h | h | h | h | h | h | h | h | h | h | h | h | h | h | h | h | h | h | h | h | h | h | h | h | h | h | h | h | h | h | h | h <;>
    (obtain ⟨rfl, rfl⟩ := h; exact ⟨rfl, by simp, trivial, by simp⟩)

/-! ### Tokens -/

/-- The token, with nothing behind it, reads as itself. -/
def Good (k : TK) : Prop := GoodText k ∧ (k = .close .brk ∨ k = .close .brk2 ∨ ((∀ b, k = .close b → b = .par) ∧ ∀ st r, Stops k r → munch st (k.text ++ r) = some (k, r)))

theorem munch_inv {st : Stack} {s : Str} {k : TK} {r : Str} (h : munch st s = some (k, r)) : s = k.text ++ r ∧ Good k := by
  cases s with
  | nil => cases h
  | cons c s =>
    simp only [munch] at h
    split at h
    · rename_i hcw
      split at h
      · rename_i hn
        obtain ⟨e1, e0, ⟨l, hl, hlw⟩, ⟨a, w, rfl⟩, e3⟩ := number_inv h
        have hne : (TK.atom a w).text ≠ [] := by intro e; rw [e] at hl; cases hl
        obtain ⟨x, t, hx⟩ := List.exists_cons_of_ne_nil hne
        have hxc : x = c := by rw [hx] at e1; cases e1; rfl
        subst hxc
        refine ⟨e1, ⟨x, l, by rw [hx]; rfl, hl, by simp [isEdgeChar, hcw], by simp [isEdgeChar, hlw]⟩, .inr (.inr ⟨(by intro b e; cases e), fun st r' hr' => ?_⟩)⟩
        have hr := hr'.word hl hlw
        have h1 := e3 r' hr
        have hn' : startsNumber ((TK.atom a w).text ++ r') = true := by
          rw [startsNumber_append _ hne hr]
          rw [← startsNumber_append (a := (TK.atom a w).text) r hne e0, ← e1]
          exact hn
        rw [hx, List.cons_append] at h1 hn' ⊢
        simp only [munch, hcw, hn', if_true, h1]
      · rename_i hn
        obtain ⟨e1, hne, hg, hcl, e3⟩ := word_inv hcw h
        obtain ⟨x, t, hx⟩ := List.exists_cons_of_ne_nil hne
        have hxc : x = c := by rw [hx] at e1; cases e1; rfl
        subst hxc
        refine ⟨e1, hg, .inr (.inr ⟨fun b e => absurd e (hcl b), fun st r' hr' => ?_⟩)⟩
        have h1 := e3 r' hr'
        have hn' : startsNumber (k.text ++ r') = false := by
          have hp : startsNumber k.text = false := startsNumber_prefix hne (by rw [← e1]; simpa using hn)
          cases t with
          | nil => rw [startsNumber_append _ hne (hr'.word (by rw [hx]; rfl) hcw)]; exact hp
          | cons y t => rw [hx] at hp ⊢; exact hp
        rw [hx, List.cons_append] at h1 hn' ⊢
        simp only [munch, hcw, hn', if_true, h1]
        rfl
    · rename_i hcw
      split at h
      · rename_i hq
        obtain ⟨⟨a, r0⟩, g1, g2⟩ := Option.map_eq_some_iff.mp h
        cases g2
        obtain ⟨e1, e2, e3⟩ := quoted_inv _ _ g1
        have ht : ∀ y, (TK.atom (if c = '`' then .id else .str) y).text = y := by intro y; split <;> rfl
        have he : isEdgeChar c = true := by
          simp only [isQuote, Bool.or_eq_true, decide_eq_true_eq] at hq
          rcases hq with (rfl | rfl) | rfl <;> decide
        refine ⟨by rw [ht, e1]; rfl, ?_, .inr (.inr ⟨(by intro b e; cases e), fun st r' hr' => ?_⟩)⟩
        · show ∃ c d, _
          rw [ht]
          exact ⟨c, c, rfl, by rw [List.getLast?_cons, e2]; rfl, he, he⟩
        · rw [ht, List.cons_append]
          simp only [munch, if_neg hcw, if_pos hq, e3]; rfl
      · rename_i hq
        split at h
        · rename_i hp
          subst hp
          obtain ⟨⟨a, r0⟩, g1, g2⟩ := Option.map_eq_some_iff.mp h
          cases g2
          obtain ⟨e1, e2⟩ := percent_inv _ g1
          refine ⟨by rw [e1]; simp [TK.text, Op.text], trivial, .inr (.inr ⟨(by intro b e; cases e), fun st r' hr' => ?_⟩)⟩
          have : (TK.op (.special a)).text ++ r' = '%' :: (a ++ '%' :: r') := by simp [TK.text, Op.text]
          rw [this]
          simp only [munch, if_neg hcw, if_neg hq, if_true, e2]; rfl
        · rename_i hp
          split at h
          · rename_i hb
            subst hb
            split at h
            · split at h
              · cases h; exact ⟨rfl, trivial, .inr (.inl rfl)⟩
              · cases h
            · cases h; exact ⟨rfl, trivial, .inl rfl⟩
          · rename_i hb
            obtain ⟨t, hm, hs⟩ := symbol_inv _ h
            obtain ⟨e1, e2, e3, e4⟩ := symbol_text hm
            refine ⟨by rw [e1]; exact hs, e3, .inr (.inr ⟨e4, fun st r' hr' => ?_⟩)⟩
            obtain ⟨x, t', rfl⟩ := List.exists_cons_of_ne_nil e2
            have hxc : c = x := by cases hs; rfl
            subst hxc
            have := symbol_append hm hr'
            rw [e1, List.cons_append]
            rw [List.cons_append] at this
            simp only [munch, if_neg hcw, if_neg hq, if_neg hp, if_neg hb, this]

theorem munch_good {st st' : Stack} {k : TK} {r : Str} (hg : Good k) (hb : bracket st k = some st') (hs : Stops k r) : munch st (k.text ++ r) = some (k, r) := by
  rcases hg.2 with rfl | rfl | ⟨_, h⟩
  · have : st.head? ≠ some (some .brk2) := by
      intro e
      cases st with
      | nil => cases e
      | cons x st => cases e; simp [bracket] at hb
    show munch st (']' :: r) = _
    simp only [munch]
    rw [if_neg (by decide), if_neg (by decide), if_neg (by decide), if_pos trivial, if_neg this]
  · have : st.head? = some (some .brk2) := by
      cases st with
      | nil => cases hb
      | cons x st =>
        simp only [bracket] at hb
        split at hb
        · rename_i e; rw [e]; rfl
        · cases hb
    show munch st (']' :: ']' :: r) = _
    simp only [munch]
    rw [if_neg (by decide), if_neg (by decide), if_neg (by decide), if_pos trivial, if_pos this]
  · exact h st r hs

/-- Brackets are closed in the right order. -/
def Bal : Stack → List Tok → Prop
  | _, [] => True
  | st, t :: ts => ∃ st', bracket st t.k = some st' ∧ Bal st' ts

theorem bal_toks (n : Node) : ∀ (st : Stack) (K : List Tok), Bal st K → Bal st (toks n ++ K) := by
  have plain : ∀ {st : Stack} {g : Gap} {k : TK} {ts : List Tok}, bracket st k = some st → Bal st ts → Bal st (⟨g, k⟩ :: ts) := fun h1 h2 => ⟨_, h1, h2⟩
  induction n with
  | atom g k s => intro st K h; exact plain rfl h
  | paren g e g2 ih =>
    intro st K h
    simp only [toks, List.cons_append, List.append_assoc, List.nil_append]
    exact ⟨_, rfl, ih _ _ ⟨st, by simp [bracket], h⟩⟩
  | braces g e g2 ih =>
    intro st K h
    simp only [toks, List.cons_append, List.append_assoc, List.nil_append]
    exact ⟨_, rfl, ih _ _ ⟨st, by simp [bracket], h⟩⟩
  | un g o e ih => intro st K h; exact plain rfl (ih _ _ h)
  | bin l g o r ihl ihr =>
    intro st K h
    simp only [toks, List.cons_append, List.append_assoc]
    exact ihl _ _ (plain rfl (ihr _ _ h))
  | ext l g sl g2 k s ih =>
    intro st K h
    simp only [toks, List.cons_append, List.append_assoc, List.nil_append]
    exact ih _ _ (plain rfl (plain rfl h))
  | call f g b args g2 ihf iha =>
    intro st K h
    simp only [toks, List.cons_append, List.append_assoc, List.nil_append]
    exact ihf _ _ ⟨_, rfl, iha _ _ ⟨st, by simp [bracket], h⟩⟩
  | func g la g2 params g3 body ihp ihb =>
    intro st K h
    simp only [toks, List.cons_append, List.append_assoc]
    exact plain rfl ⟨_, rfl, ihp _ _ ⟨st, by simp [bracket], ihb _ _ h⟩⟩
  | ifE g g2 c g3 t ihc iht =>
    intro st K h
    simp only [toks, List.cons_append, List.append_assoc]
    exact plain rfl ⟨_, rfl, ihc _ _ ⟨st, by simp [bracket], iht _ _ h⟩⟩
  | ifElse g g2 c g3 t g4 e ihc iht ihe =>
    intro st K h
    simp only [toks, List.cons_append, List.append_assoc]
    exact plain rfl ⟨_, rfl, ihc _ _ ⟨st, by simp [bracket], iht _ _ (plain rfl (ihe _ _ h))⟩⟩
  | whileE g g2 c g3 b ihc ihb =>
    intro st K h
    simp only [toks, List.cons_append, List.append_assoc]
    exact plain rfl ⟨_, rfl, ihc _ _ ⟨st, by simp [bracket], ihb _ _ h⟩⟩
  | forE g g2 gv v gi seq g3 b ihs ihb =>
    intro st K h
    simp only [toks, List.cons_append, List.append_assoc]
    exact plain rfl ⟨_, rfl, plain rfl (plain rfl (ihs _ _ ⟨st, by simp [bracket], ihb _ _ h⟩))⟩
  | repE g b ih => intro st K h; exact plain rfl (ih _ _ h)
  | hole => intro st K h; exact h
  | named g k s g2 e ih => intro st K h; exact plain rfl (plain rfl (ih _ _ h))
  | comma a g rest iha ihr =>
    intro st K h
    simp only [toks, List.cons_append, List.append_assoc]
    exact iha _ _ (plain rfl (ihr _ _ h))
  | snil => intro st K h; exact h
  | scons e semis rest ihe ihr =>
    intro st K h
    simp only [toks, List.append_assoc]
    refine ihe _ _ ?_
    induction semis with
    | nil => exact ihr _ _ h
    | cons g gs ih => exact plain rfl ih

/-! ### Texts -/

theorem good_head {k : TK} (h : Good k) : ∃ c s, k.text = c :: s ∧ stopChar c = true := by
  have sym : ∀ {c : Char} {t : Str}, t.head? = some c → isSymChar c = true → ∃ c s, t = c :: s ∧ stopChar c = true := by
    intro c t ht hc
    cases t with
    | nil => cases ht
    | cons x t =>
      cases ht
      refine ⟨c, t, rfl, ?_⟩
      cases hs : stopChar c with
      | true => rfl
      | false => rcases not_stop_cases hs with h | h | h | h | h | h <;> subst h <;> exact absurd hc (by decide)
  cases k with
  | atom a s =>
    obtain ⟨c, d, h1, _, h3, _⟩ := h.1
    cases ht : (TK.atom a s).text with
    | nil => rw [ht] at h1; cases h1
    | cons x t =>
      rw [ht] at h1
      cases h1
      refine ⟨c, t, rfl, ?_⟩
      cases hs : stopChar c with
      | true => rfl
      | false => rcases not_stop_cases hs with h | h | h | h | h | h <;> subst h <;> exact absurd h3 (by decide)
  | op o => obtain ⟨c, h1, h2⟩ := op_text_head o; exact sym h1 h2
  | «open» b => cases b <;> exact ⟨_, _, rfl, by decide⟩
  | close b => cases b <;> exact ⟨_, _, rfl, by decide⟩
  | fn b => cases b <;> exact ⟨_, _, rfl, by decide⟩
  | ext b => cases b <;> exact ⟨_, _, rfl, by decide⟩
  | _ => exact ⟨_, _, rfl, by decide⟩

theorem stops_blank {k : TK} {r : Str} (h : ∀ d, r.head? = some d → stopChar d = false) : Stops k r := by
  refine ⟨fun c d _ hd => not_stop_not_glued (h d hd), fun _ _ _ d hd => (not_stop_not_quote (h d hd)).1, fun r' e => ?_⟩
  exact (not_stop_not_quote (h ':' (by rw [e]; rfl))).2 rfl

theorem colon_head {k : TK} (h : Good k) (hc : k.text.head? = some ':') : k = .op .colon := by
  cases k with
  | atom a s => obtain ⟨c, d, h1, _, h3, _⟩ := h.1; rw [h1] at hc; cases hc; exact absurd h3 (by decide)
  | op o => cases o <;> first | rfl | (exfalso; revert hc; simp [TK.text, Op.text])
  | «open» b => cases b <;> (exfalso; revert hc; simp [TK.text])
  | close b => cases b <;> (exfalso; revert hc; simp [TK.text])
  | fn b => cases b <;> (exfalso; revert hc; simp [TK.text])
  | ext b => cases b <;> (exfalso; revert hc; simp [TK.text])
  | _ => exfalso; revert hc; simp [TK.text]

theorem quote_head {k : TK} {d : Char} (hd : k.text.head? = some d) (hq : isQuote d = true) : ∃ a s, k = .atom a s := by
  have : ∀ d, isSymChar d = true → isQuote d = true → False := by
    intro d h1 h2
    simp only [isQuote, Bool.or_eq_true, decide_eq_true_eq] at h2
    rcases h2 with (rfl | rfl) | rfl <;> exact absurd h1 (by decide)
  cases k with
  | atom a s => exact ⟨a, s, rfl⟩
  | op o => obtain ⟨c, h1, h2⟩ := op_text_head o; rw [TK.text, h1] at hd; cases hd; exact (this _ h2 hq).elim
  | «open» b => cases b <;> (cases hd; exact absurd hq (by decide))
  | close b => cases b <;> (cases hd; exact absurd hq (by decide))
  | fn b => cases b <;> (cases hd; exact absurd hq (by decide))
  | ext b => cases b <;> (cases hd; exact absurd hq (by decide))
  | _ => cases hd; exact absurd hq (by decide)

theorem not_glued_next {k : TK} {q : Piece} {ps : List Piece} (hk : Good k) (hq : Good q.k) (ha : Airy (some k) (q :: ps)) (hs : Steps k (piecesToks (q :: ps))) (hg : q.gap = []) :
    allowed k q.k = true ∧ ¬ Glued k q.k := by
  obtain ⟨a1, a2, a3, a4, a5, a6⟩ := ha.1 hg
  have hal : allowed k q.k = true := hs.1 (by simp [hg, gapOf_nil, Gap.nl])
  refine ⟨hal, fun hgl => ?_⟩
  have := seam_of_allowed hk.1 hq.1 hal hgl
  simp_all

/-- A token is not made longer by what stands behind it in R code. -/
theorem stops_next {k : TK} {ps : List Piece} {tail : Str} (hk : Good k) (h : ∀ p ∈ ps, gapOk false p.gap = true ∧ Good p.k) (ha : Airy (some k) ps) (hs : Steps k (piecesToks ps))
    (ht : TailOk tail) : Stops k (piecesText ps ++ tail) := by
  cases ps with
  | nil => exact stops_blank (fun d hd => tail_head ht hd)
  | cons q ps =>
    obtain ⟨h1, h2⟩ := h q (List.mem_cons_self ..)
    by_cases hg : q.gap = []
    · obtain ⟨hal, hng⟩ := not_glued_next hk h2 ha hs hg
      obtain ⟨c0, s0, e0, hc0⟩ := good_head h2
      have htx : piecesText (q :: ps) ++ tail = c0 :: (s0 ++ (piecesText ps ++ tail)) := by simp [piecesText, hg, e0]
      rw [htx]
      refine ⟨fun c d hc hd => ?_, fun a s e d hd => ?_, fun r' e => ?_⟩
      · cases hd
        cases hgl : gluedChars c c0 with
        | false => rfl
        | true => exact absurd ⟨c, c0, hc, by rw [e0]; rfl, hgl⟩ hng
      · cases hd
        cases hq : isQuote c0 with
        | false => rfl
        | true =>
          obtain ⟨a', s', e'⟩ := quote_head (by rw [e0]; rfl) hq
          rw [e, e'] at hal
          cases hal
      · simp only [List.cons.injEq] at e
        have hq := colon_head h2 (by rw [e0, e.1]; rfl)
        rw [hq] at e0
        cases e0
        rw [List.nil_append] at e
        have e2 := e.2
        cases ps with
        | nil =>
          have := tail_head ht (d := ':') (by
            simp only [piecesText, List.nil_append] at e2; rw [e2]; rfl)
          exact absurd this (by decide)
        | cons q2 ps =>
          obtain ⟨g1, g2⟩ := h q2 (by simp)
          by_cases hg2 : q2.gap = []
          · obtain ⟨hal2, _⟩ := not_glued_next h2 g2 ha.2 hs.2 hg2
            obtain ⟨c1, s1, e1, _⟩ := good_head g2
            simp only [piecesText, hg2, e1, List.nil_append, List.cons_append, List.cons.injEq] at e2
            rw [hq, colon_head g2 (by rw [e1, e2.1]; rfl)] at hal2
            cases hal2
          · obtain ⟨x, t, ex⟩ := List.exists_cons_of_ne_nil hg2
            have := gapOk_head g1 (d := x) (by rw [ex]; rfl)
            simp only [piecesText, ex, List.cons_append, List.cons.injEq] at e2
            rw [e2.1] at this
            exact absurd this (by decide)
    · obtain ⟨x, t, ex⟩ := List.exists_cons_of_ne_nil hg
      refine stops_blank fun d hd => ?_
      simp only [piecesText, ex, List.cons_append, List.head?_cons, Option.some.injEq] at hd
      subst hd
      exact gapOk_head h1 (by rw [ex]; rfl)

/-- Pieces of R code, with blanks where they are needed, are what R makes of their text. -/
theorem lexN_pieces : ∀ (ps : List Piece) (n : Nat) (st : Stack) (tail : Str) (prev : Option TK), ps.length < n → (∀ p ∈ ps, gapOk false p.gap = true ∧ Good p.k) → Airy prev ps →
    (∀ p qs, ps = p :: qs → Steps p.k (piecesToks qs)) → Bal st (piecesToks ps) → TailOk tail → lexN n st (piecesText ps ++ tail) = some ⟨ps, tail⟩ := by
  intro ps
  induction ps with
  | nil =>
    intro n st tail prev hn _ _ _ _ ht
    obtain ⟨n, rfl⟩ : ∃ m, n = m + 1 := ⟨n - 1, by simp at hn; omega⟩
    have : gapRun false tail = (tail, []) := ht
    simp [lexN, piecesText, this]
  | cons p ps ih =>
    intro n st tail prev hn h ha hs hb ht
    obtain ⟨n, rfl⟩ : ∃ m, n = m + 1 := ⟨n - 1, by simp at hn; omega⟩
    obtain ⟨h1, h2⟩ := h p (List.mem_cons_self ..)
    have h' := fun q hq => h q (List.mem_cons_of_mem _ hq)
    obtain ⟨st', hb1, hb2⟩ := hb
    have hst := hs p ps rfl
    have hm := munch_good h2 hb1 (stops_next h2 h' ha.2 hst ht)
    obtain ⟨c, s, e, hc⟩ := good_head h2
    have hgr : gapRun false (p.gap ++ (p.k.text ++ (piecesText ps ++ tail))) = (p.gap, p.k.text ++ (piecesText ps ++ tail)) := by
      refine gapRun_append h1 fun d hd => ?_
      rw [e] at hd; cases hd; exact hc
    have htx : piecesText (p :: ps) ++ tail = p.gap ++ (p.k.text ++ (piecesText ps ++ tail)) := by simp [piecesText]
    rw [htx]
    simp only [lexN, hgr]
    rw [if_neg (by rw [e]; simp)]
    simp only [hm, hb1]
    rw [ih n st' tail (some p.k) (by simp at hn; omega) h' ha.2 (by intro q qs e; subst e; exact hst.2) hb2 ht]
    rfl

theorem lexN_inv : ∀ (n : Nat) (st : Stack) (s : Str) (src : Src), lexN n st s = some src → src.text = s ∧ (∀ p ∈ src.pieces, gapOk false p.gap = true ∧ Good p.k) ∧ TailOk src.tail := by
  intro n
  induction n with
  | zero => intro st s src h; cases h
  | succ n ih =>
    intro st s src h
    simp only [lexN] at h
    obtain ⟨e1, e2⟩ := gapRun_inv (b := false) (s := s) rfl
    generalize hg : (gapRun false s).1 = g at *
    generalize hr : (gapRun false s).2 = r at *
    split at h
    · rename_i hr0
      cases h
      subst hr0
      rw [List.append_nil] at e1
      subst e1
      refine ⟨rfl, by simp, ?_⟩
      show gapRun false s = _
      rw [← Prod.eta (gapRun false s), hg, hr]
    · rename_i hr0
      obtain ⟨g1, _⟩ := e2 hr0
      split at h
      · cases h
      · rename_i k r' hm
        obtain ⟨m1, m2⟩ := munch_inv hm
        split at h
        · cases h
        · obtain ⟨src', h1, h2⟩ := Option.map_eq_some_iff.mp h
          cases h2
          obtain ⟨f1, f2, f3⟩ := ih _ _ _ h1
          refine ⟨?_, ?_, f3⟩
          · rw [e1, m1, ← f1]; simp [Src.text, piecesText]
          · intro p hp
            rcases List.mem_cons.mp hp with rfl | hp
            · exact ⟨g1, m2⟩
            · exact f2 p hp

end Jarl

import Verif.Props.PackageScan
/-!
# Scanning for identifiers
-/
namespace Jarl
open Spec

theorem symChar_iff {c : Char} : symChar c = true ↔ SymChar c := by simp [symChar, dotUnder, SymChar]

theorem symStart_iff {c : Char} : symStart c = true ↔ SymChar c ∧ c.isDigit = false := by
  unfold symStart SymChar dotUnder
  simp only [Char.isAlphanum, Bool.or_eq_true, beq_iff_eq]
  constructor
  · rintro (h | h | h)
    · refine ⟨.inl (.inl h), ?_⟩
      cases hd : c.isDigit with
      | false => rfl
      | true =>
        exfalso
        simp only [Char.isAlpha, Char.isUpper, Char.isLower, Char.isDigit, Bool.or_eq_true, Bool.and_eq_true,
          decide_eq_true_eq, ge_iff_le, UInt32.le_iff_toNat_le] at h hd
        have e1 : 'A'.val.toNat = 65 := rfl
        have e2 : 'Z'.val.toNat = 90 := rfl
        have e3 : 'a'.val.toNat = 97 := rfl
        have e4 : 'z'.val.toNat = 122 := rfl
        have e5 : '0'.val.toNat = 48 := rfl
        have e6 : '9'.val.toNat = 57 := rfl
        omega
    · subst h; exact ⟨.inr (.inl rfl), by decide⟩
    · subst h; exact ⟨.inr (.inr rfl), by decide⟩
  · rintro ⟨(h | h) | h, hd⟩
    · exact .inl h
    · rw [hd] at h; cases h
    · exact .inr h

/-- `symbolsOf` with positions. -/
def symbolsAt : Nat → Str → Str → List (Str × Str)
  | 0, _, _ => []
  | _ + 1, _, [] => []
  | n + 1, pre, c :: cs =>
    if symStart c then (pre, c :: cs.takeWhile symChar) :: symbolsAt n (pre ++ c :: cs.takeWhile symChar) (cs.dropWhile symChar)
    else symbolsAt n (pre ++ [c]) cs

theorem symbolsAt_snd (n : Nat) : ∀ pre s, (symbolsAt n pre s).map Prod.snd = symbolsOf n s := by
  induction n with
  | zero => intro pre s; rfl
  | succ n ih =>
    intro pre s
    cases s with
    | nil => rfl
    | cons c cs =>
      unfold symbolsAt symbolsOf
      split
      · simp [ih]
      · exact ih _ _

theorem symbolsAt_prefix (n : Nat) : ∀ pre s a w, (a, w) ∈ symbolsAt n pre s → pre.length ≤ a.length := by
  induction n with
  | zero => intro pre s a w h; cases h
  | succ n ih =>
    intro pre s a w h
    cases s with
    | nil => cases h
    | cons c cs =>
      unfold symbolsAt at h
      split at h
      · rcases List.mem_cons.mp h with h | h
        · cases h; exact Nat.le_refl _
        · have := ih _ _ _ _ h; simp at this; omega
      · have := ih _ _ _ _ h; simp at this; omega

theorem symbolsAt_sorted (n : Nat) : ∀ pre s, (symbolsAt n pre s).Pairwise (fun x y => x.1.length < y.1.length) := by
  induction n with
  | zero => intro pre s; exact List.Pairwise.nil
  | succ n ih =>
    intro pre s
    cases s with
    | nil => exact List.Pairwise.nil
    | cons c cs =>
      unfold symbolsAt
      split
      · refine List.Pairwise.cons ?_ (ih _ _)
        rintro ⟨a, w⟩ h
        have := symbolsAt_prefix _ _ _ _ _ h
        simp at this
        simp; omega
      · exact ih _ _

theorem leftOk_nil : LeftOk [] := ⟨[], [], rfl, by simp, by simp⟩

theorem leftOk_snoc_other {pre : Str} {c : Char} (h : ¬ SymChar c) : LeftOk (pre ++ [c]) :=
  ⟨pre ++ [c], [], by simp, by simp, by simp [h]⟩

theorem leftOk_snoc_digit {pre : Str} {c : Char} (hp : LeftOk pre) (h : c.isDigit = true) : LeftOk (pre ++ [c]) := by
  obtain ⟨a, ds, rfl, h1, h2⟩ := hp
  refine ⟨a, ds ++ [c], by simp, ?_, h2⟩
  intro d hd
  rcases List.mem_append.mp hd with hd | hd
  · exact h1 d hd
  · simp at hd; rw [hd]; exact h

/-- Behind the first character of an identifier, a word only starts after the end of the identifier. -/
theorem leftOk_through {pre t : Str} {c : Char} (hc : SymChar c) (hd : c.isDigit = false) (h : LeftOk (pre ++ c :: t)) :
    ∃ x, x ∈ t ∧ ¬ SymChar x := by
  apply Classical.byContradiction
  intro hno
  have hall : ∀ x ∈ t, SymChar x := fun x hx => Classical.byContradiction fun hn => hno ⟨x, hx, hn⟩
  obtain ⟨a, ds, he, h1, h2⟩ := h
  -- compare the two decompositions
  rcases List.append_eq_append_iff.mp he with ⟨u, hu1, hu2⟩ | ⟨u, hu1, hu2⟩
  · -- a = pre ++ u, c :: t = u ++ ds
    cases u with
    | nil =>
      simp at hu2
      have := h1 c (by rw [← hu2]; simp)
      rw [this] at hd; cases hd
    | cons x xs =>
      have hlast : ∃ y, a.getLast? = some y ∧ y ∈ (x :: xs) := by
        have : (x :: xs).getLast? ≠ none := by simp
        obtain ⟨y, hy⟩ := Option.ne_none_iff_exists'.mp this
        refine ⟨y, ?_, List.mem_of_getLast? hy⟩
        rw [hu1, List.getLast?_append, hy]; rfl
      obtain ⟨y, hy, hym⟩ := hlast
      have hymem : y ∈ c :: t := by rw [hu2]; exact List.mem_append_left _ hym
      refine h2 y (by rw [hy]; rfl) ?_
      rcases List.mem_cons.mp hymem with rfl | hm
      · exact hc
      · exact hall y hm
  · -- pre = a ++ u, ds = u ++ c :: t
    have := h1 c (by rw [hu2]; simp)
    rw [this] at hd; cases hd

theorem takeWhile_of_nonmember {p : Char → Bool} {a b : Str} (h : ∃ x ∈ a, p x = false) :
    (a ++ b).takeWhile p = a.takeWhile p ∧ (a ++ b).dropWhile p = a.dropWhile p ++ b := by
  induction a with
  | nil => obtain ⟨x, hx, _⟩ := h; cases hx
  | cons c cs ih =>
    cases hp : p c with
    | false => simp [hp]
    | true =>
      have : ∃ x ∈ cs, p x = false := by
        obtain ⟨x, hx, hf⟩ := h
        rcases List.mem_cons.mp hx with rfl | hx
        · rw [hp] at hf; cases hf
        · exact ⟨x, hx, hf⟩
      obtain ⟨h1, h2⟩ := ih this
      simp [hp, h1, h2]

theorem symChar_false {c : Char} : symChar c = false ↔ ¬ SymChar c := by
  rw [← symChar_iff]; simp

theorem symbolsAt_mem (n : Nat) : ∀ pre s a w, s.length ≤ n → (LeftOk pre ∨ ∀ c ∈ s.head?, ¬ SymChar c) →
    ((a, w) ∈ symbolsAt n pre s ↔
      ∃ t b, a = pre ++ t ∧ s = t ++ w ++ b ∧ AsciiName w ∧ LeftOk a ∧ ∀ c ∈ b.head?, ¬ SymChar c) := by
  induction n with
  | zero =>
    intro pre s a w hlen _
    obtain rfl : s = [] := List.length_eq_zero_iff.mp (by omega)
    constructor
    · intro h; cases h
    · rintro ⟨t, b, _, he, ⟨⟨c, cs, hw, _⟩, _⟩, _⟩
      rw [hw] at he
      simp at he
  | succ n ih =>
    intro pre s a w hlen hinv
    cases s with
    | nil =>
      constructor
      · intro h; cases h
      · rintro ⟨t, b, _, he, ⟨⟨c, cs, hw, _⟩, _⟩, _⟩
        rw [hw] at he
        simp at he
    | cons c cs =>
      simp at hlen
      unfold symbolsAt
      split
      · rename_i hst
        obtain ⟨hsym, hdig⟩ := symStart_iff.mp hst
        have hleft : LeftOk pre := by
          rcases hinv with h | h
          · exact h
          · exact absurd hsym (h c (by simp))
        have hcs : cs = cs.takeWhile symChar ++ cs.dropWhile symChar := List.takeWhile_append_dropWhile.symm
        have htw : ∀ x ∈ cs.takeWhile symChar, SymChar x := fun x hx =>
          symChar_iff.mp (List.all_eq_true.mp List.all_takeWhile x hx)
        have hdw : ∀ x ∈ (cs.dropWhile symChar).head?, ¬ SymChar x := by
          intro x hx
          have := List.head?_dropWhile_not (p := symChar) (l := cs)
          cases hh : (cs.dropWhile symChar).head? with
          | none => rw [hh] at hx; cases hx
          | some y =>
            rw [hh] at hx this
            cases hx
            simp at this
            exact symChar_false.mp this
        have hdl : (cs.dropWhile symChar).length ≤ n := by
          exact Nat.le_trans (List.dropWhile_sublist _).length_le hlen
        have hih := ih (pre ++ c :: cs.takeWhile symChar) (cs.dropWhile symChar) a w hdl (.inr hdw)
        simp only [List.mem_cons]
        rw [hih]
        constructor
        · rintro (h | ⟨t, b, h1, h2, h3, h4, h5⟩)
          · cases h
            refine ⟨[], cs.dropWhile symChar, by simp, ?_, ⟨⟨c, _, rfl, hdig⟩, ?_⟩, hleft, hdw⟩
            · simp
            · intro x hx
              rcases List.mem_cons.mp hx with rfl | hx
              · exact hsym
              · exact htw x hx
          · refine ⟨c :: cs.takeWhile symChar ++ t, b, by rw [h1]; simp, ?_, h3, h4, h5⟩
            conv => lhs; rw [hcs, h2]
            simp
        · rintro ⟨t, b, h1, h2, h3, h4, h5⟩
          cases t with
          | nil =>
            left
            have h2 : c :: cs = w ++ b := by simpa using h2
            have hspan := span_append (p := symChar) (a := w) (b := b) (fun x hx => symChar_iff.mpr (h3.2 x hx))
              (fun x hx => symChar_false.mpr (h5 x hx))
            rw [← h2] at hspan
            have : w = c :: cs.takeWhile symChar := by
              rw [← hspan.1]
              simp [symChar_iff.mpr hsym]
            rw [this]
            have : a = pre := by simpa using h1
            rw [this]
          | cons x t' =>
            right
            simp at h2
            obtain ⟨rfl, h2⟩ := h2
            obtain ⟨y, hy, hyn⟩ := leftOk_through hsym hdig (h1 ▸ h4)
            obtain ⟨e1, e2⟩ := takeWhile_of_nonmember (p := symChar) (b := w ++ b) ⟨y, hy, symChar_false.mpr hyn⟩
            refine ⟨t'.dropWhile symChar, b, ?_, ?_, h3, h4, h5⟩
            · rw [h1, h2, e1]
              simp
            · rw [h2, e2]; simp
      · rename_i hst
        have hns : ¬ (SymChar c ∧ c.isDigit = false) := by rw [← symStart_iff]; exact hst
        have hleft' : LeftOk (pre ++ [c]) := by
          by_cases hsym : SymChar c
          · have hd : c.isDigit = true := by
              cases hd : c.isDigit with
              | true => rfl
              | false => exact absurd ⟨hsym, hd⟩ hns
            rcases hinv with h | h
            · exact leftOk_snoc_digit h hd
            · exact absurd hsym (h c (by simp))
          · exact leftOk_snoc_other hsym
        rw [ih (pre ++ [c]) cs a w (by omega) (.inl hleft')]
        constructor
        · rintro ⟨t, b, h1, h2, h3, h4, h5⟩
          exact ⟨c :: t, b, by rw [h1]; simp, by rw [h2]; simp, h3, h4, h5⟩
        · rintro ⟨t, b, h1, h2, h3, h4, h5⟩
          cases t with
          | nil =>
            exfalso
            obtain ⟨⟨d, ds, hw, hd⟩, hall⟩ := h3
            rw [hw] at h2
            simp at h2
            obtain ⟨rfl, _⟩ := h2
            exact hns ⟨hall c (by rw [hw]; simp), hd⟩
          | cons x t' =>
            simp at h2
            obtain ⟨rfl, h2⟩ := h2
            exact ⟨t', b, by rw [h1]; simp, by rw [h2]; simp, h3, h4, h5⟩

/-- The identifiers of a line, with their positions. -/
theorem symbolsAt_line {l a name : Str} (hn : AsciiName name) :
    (a, name) ∈ symbolsAt l.length [] l ↔ ∃ post, WordAt l a name post := by
  rw [symbolsAt_mem l.length [] l a name (Nat.le_refl _) (.inl leftOk_nil)]
  constructor
  · rintro ⟨t, b, h1, h2, _, h4, h5⟩
    simp at h1
    subst h1
    exact ⟨b, h2, h4, h5⟩
  · rintro ⟨post, h⟩
    exact ⟨a, post, rfl, h.eq, hn, h.left, h.right⟩

/-- What is not an ASCII identifier is never found. -/
theorem symbolsOf_ascii {n : Nat} {l w : Str} (hlen : l.length ≤ n) (h : w ∈ symbolsOf n l) : AsciiName w := by
  rw [← symbolsAt_snd n [] l] at h
  obtain ⟨⟨a, w'⟩, hm, rfl⟩ := List.mem_map.mp h
  obtain ⟨_, _, _, _, h3, _⟩ := (symbolsAt_mem n [] l a w' hlen (.inl leftOk_nil)).mp hm
  exact h3

/-- The number of words `name` in a line. -/
theorem count_symbols (l name : Str) : (symbolsOf l.length l).count name =
    ((symbolsAt l.length [] l).filter (fun x => x.2 = name)).length := by
  rw [← symbolsAt_snd l.length [] l]
  generalize symbolsAt l.length [] l = ps
  induction ps with
  | nil => rfl
  | cons p ps ih =>
    rw [List.map_cons, List.count_cons, List.filter_cons, ih]
    by_cases h : p.2 = name
    · simp [h]
    · simp [h]

theorem count_pos_iff {l name : Str} (hn : AsciiName name) :
    name ∈ symbolsOf l.length l ↔ ∃ a post, WordAt l a name post := by
  rw [← symbolsAt_snd l.length [] l, List.mem_map]
  constructor
  · rintro ⟨⟨a, w⟩, hm, rfl⟩
    obtain ⟨post, hp⟩ := (symbolsAt_line hn).mp hm
    exact ⟨a, post, hp⟩
  · rintro ⟨a, post, hp⟩
    exact ⟨(a, name), (symbolsAt_line hn).mpr ⟨post, hp⟩, rfl⟩

/-- At most one word `name`, and only at the start of the line. -/
theorem count_le_one {l name : Str} (hn : AsciiName name) (h : ∀ a post, WordAt l a name post → a = []) :
    (symbolsOf l.length l).count name ≤ 1 := by
  rw [count_symbols]
  have hs := (symbolsAt_sorted l.length [] l).filter (fun x => decide (x.2 = name))
  have hall : ∀ x ∈ (symbolsAt l.length [] l).filter (fun x => decide (x.2 = name)), x.1 = [] := by
    rintro ⟨a, w⟩ hx
    obtain ⟨h1, h2⟩ := List.mem_filter.mp hx
    simp at h2
    subst h2
    obtain ⟨post, hp⟩ := (symbolsAt_line hn).mp h1
    exact h a post hp
  generalize (symbolsAt l.length [] l).filter (fun x => decide (x.2 = name)) = L at hs hall
  cases L with
  | nil => simp
  | cons x xs =>
    cases xs with
    | nil => simp
    | cons y ys =>
      rw [List.pairwise_cons] at hs
      have := hs.1 y (by simp)
      rw [hall x (by simp), hall y (by simp)] at this
      simp at this

theorem eq_of_count_le_one {l name a a' post post' : Str} (hn : AsciiName name) (h : (symbolsOf l.length l).count name ≤ 1)
    (h1 : WordAt l a name post) (h2 : WordAt l a' name post') : a = a' := by
  rw [count_symbols] at h
  have m1 : (a, name) ∈ (symbolsAt l.length [] l).filter (fun x => decide (x.2 = name)) :=
    List.mem_filter.mpr ⟨(symbolsAt_line hn).mpr ⟨post, h1⟩, by simp⟩
  have m2 : (a', name) ∈ (symbolsAt l.length [] l).filter (fun x => decide (x.2 = name)) :=
    List.mem_filter.mpr ⟨(symbolsAt_line hn).mpr ⟨post', h2⟩, by simp⟩
  generalize (symbolsAt l.length [] l).filter (fun x => decide (x.2 = name)) = L at h m1 m2
  cases L with
  | nil => cases m1
  | cons x xs =>
    cases xs with
    | nil =>
      simp at m1 m2
      have := m1.trans m2.symm
      simpa using this
    | cons y ys => simp at h

theorem isAlphanum_range' {c : Char} (h : c.isAlphanum = true) :
    (65 ≤ c.toNat ∧ c.toNat ≤ 90) ∨ (97 ≤ c.toNat ∧ c.toNat ≤ 122) ∨ (48 ≤ c.toNat ∧ c.toNat ≤ 57) := by
  simp only [Char.isAlphanum, Char.isAlpha, Char.isUpper, Char.isLower, Char.isDigit, Bool.or_eq_true, Bool.and_eq_true,
    decide_eq_true_eq, ge_iff_le, UInt32.le_iff_toNat_le] at h
  rcases h with (⟨h1, h2⟩ | ⟨h1, h2⟩) | ⟨h1, h2⟩
  · exact .inl ⟨h1, h2⟩
  · exact .inr (.inl ⟨h1, h2⟩)
  · exact .inr (.inr ⟨h1, h2⟩)

/-! ## Comments -/

theorem codeLine_iff {l : Str} : skippedComment l = false ↔ CodeLine l := by
  unfold skippedComment
  constructor
  · intro h w r hl hw
    rw [hl, trimStart_ws_append hw, trimStart_of_head (by decide)] at h
    rw [Bool.and_eq_false_iff] at h
    rcases h with h | h
    · exfalso
      have : startsWith ['#'] ('#' :: r) = true := rfl
      rw [this] at h; cases h
    · simp only [Bool.not_eq_false'] at h
      obtain ⟨t, ht⟩ := startsWith_iff.mp h
      simp at ht
      rw [ht]; rfl
  · intro h
    rw [Bool.and_eq_false_iff]
    by_cases hs : startsWith ['#'] (trimStart l) = true
    · right
      simp only [Bool.not_eq_false']
      obtain ⟨t, ht⟩ := startsWith_iff.mp hs
      obtain ⟨w, hw, hws⟩ := trimStart_spec l
      rw [ht] at hw
      have := h w t hw hws
      rw [ht, startsWith_iff]
      cases t with
      | nil => cases this
      | cons d ds => simp at this; subst this; exact ⟨ds, rfl⟩
    · left; simpa using hs

/-- The number of words `name` in a line, comments not counted. -/
def lineCount (l name : Str) : Nat := (if skippedComment l then [] else symbolsOf l.length l).count name

theorem defLine_code {alnum : Char → Bool} (h : Alnum alnum) {l name : Str} (hd : DefLine alnum l name) : CodeLine l := by
  intro w r hl hw
  exfalso
  generalize hx : l = x at hd
  cases hd with
  | mk name w1 op w2 rhs hne hn =>
    cases name with
    | nil => exact hne rfl
    | cons c cs =>
      have hc := hn c (by simp)
      rw [hl] at hx
      cases w with
      | nil =>
        simp at hx
        obtain ⟨rfl, _⟩ := hx
        exact ascii_not_name h (by decide) (by decide) (by decide) (by decide) hc
      | cons d ds =>
        simp at hx
        obtain ⟨rfl, _⟩ := hx
        have := nameChar_not_ws h hc
        rw [hw d (by simp)] at this
        cases this

theorem op_ws_not_sym {w1 op : Str} (hw : ∀ c ∈ w1, isWs c = true) (hop : op = ['<', '-'] ∨ op = ['=']) (rest : Str) :
    ∀ c ∈ (w1 ++ op ++ rest).head?, ¬ SymChar c := by
  intro c hc hs
  have hws : ∀ d, isWs d = true → ¬ SymChar d := by
    intro d hd hsd
    rcases hsd with hsd | rfl | rfl
    · have := isAlphanum_range' hsd
      unfold isWs at hd
      simp at hd
      omega
    · revert hd; decide
    · revert hd; decide
  cases w1 with
  | nil =>
    rcases hop with rfl | rfl <;> simp at hc <;> subst hc <;> rcases hs with hs | hs | hs <;> revert hs <;> decide
  | cons d ds =>
    simp at hc
    subst hc
    exact hws d (hw d (by simp)) hs

theorem defLine_word {alnum : Char → Bool} {l name : Str} (hd : DefLine alnum l name) : ∃ post, WordAt l [] name post := by
  cases hd with
  | mk name w1 op w2 rhs hne hn h1 hop h2 hr =>
    refine ⟨w1 ++ op ++ (w2 ++ rhs), by simp, leftOk_nil, ?_⟩
    exact op_ws_not_sym h1 hop _

/-! ## Lines and files -/

/-- In this line, `name` only occurs as the name of its definition. -/
def GoodLine (alnum : Char → Bool) (name l : Str) : Prop :=
  CodeLine l → ∀ a post, WordAt l a name post → a = [] ∧ DefLine alnum l name

/-- The number of definitions of `name` in a line. -/
def lineDefs (alnum : Char → Bool) (l name : Str) : Nat := if definedName alnum l = some name then 1 else 0

theorem line_key {alnum : Char → Bool} (h : Alnum alnum) {l name : Str} (hn : AsciiName name) :
    lineDefs alnum l name ≤ lineCount l name ∧ (lineCount l name ≤ lineDefs alnum l name ↔ GoodLine alnum name l) := by
  unfold lineDefs lineCount
  by_cases hd : DefLine alnum l name
  · rw [if_pos ((definedName_iff h).mpr hd)]
    have hcode := defLine_code h hd
    rw [codeLine_iff.mpr hcode]
    simp only [Bool.false_eq_true, if_false]
    obtain ⟨post0, hw0⟩ := defLine_word hd
    refine ⟨?_, ?_⟩
    · rw [Nat.one_le_iff_ne_zero, ne_eq, List.count_eq_zero]
      exact fun hm => hm ((count_pos_iff hn).mpr ⟨[], post0, hw0⟩)
    · constructor
      · intro hle _ a post hw
        exact ⟨eq_of_count_le_one hn hle hw hw0, hd⟩
      · intro hg
        exact count_le_one hn (fun a post hw => (hg hcode a post hw).1)
  · rw [if_neg (fun hx => hd ((definedName_iff h).mp hx))]
    refine ⟨Nat.zero_le _, ?_⟩
    rw [Nat.le_zero, List.count_eq_zero]
    constructor
    · intro hm hcode a post hw
      rw [codeLine_iff.mpr hcode] at hm
      simp only [Bool.false_eq_true, if_false] at hm
      exact absurd ((count_pos_iff hn).mpr ⟨a, post, hw⟩) hm
    · intro hg
      split
      · simp
      · rename_i hs
        have hs : skippedComment l = false := by simpa using hs
        intro hm
        obtain ⟨a, post, hw⟩ := (count_pos_iff hn).mp hm
        exact hd (hg (codeLine_iff.mp hs) a post hw).2

theorem eol_not_sym {e : Char} (he : e = '\r' ∨ e = '\n') : ¬ SymChar e := by
  rcases he with rfl | rfl <;> (rintro (h | h | h) <;> revert h <;> decide)

theorem wordAt_eols {l r a name : Str} (hn : AsciiName name) (hr : ∀ e ∈ r, e = '\r' ∨ e = '\n') :
    (∃ post, WordAt (l ++ r) a name post) ↔ ∃ post, WordAt l a name post := by
  constructor
  · rintro ⟨post, hw⟩
    have he := hw.eq
    rcases List.append_eq_append_iff.mp he with ⟨u, hu1, hu2⟩ | ⟨u, hu1, hu2⟩
    · -- a ++ name = l ++ u, r = u ++ post
      obtain rfl : u = [] := by
        cases hul : u.getLast? with
        | none => simpa using hul
        | some x =>
          exfalso
          have hx : (a ++ name).getLast? = some x := by rw [hu1, List.getLast?_append, hul]; rfl
          have hxn : x ∈ name := by
            obtain ⟨⟨c, cs, hc, _⟩, _⟩ := hn
            cases hnl : name.getLast? with
            | none => rw [List.getLast?_eq_none_iff] at hnl; rw [hc] at hnl; cases hnl
            | some y =>
              rw [List.getLast?_append, hnl] at hx
              simp at hx
              subst hx
              exact List.mem_of_getLast? hnl
          exact eol_not_sym (hr x (by rw [hu2]; exact List.mem_append_left _ (List.mem_of_getLast? hul))) (hn.2 x hxn)
      exact ⟨[], by simpa using hu1.symm, hw.left, by simp⟩
    · -- l = a ++ name ++ u, post = u ++ r
      refine ⟨u, hu1, hw.left, ?_⟩
      intro c hc
      apply hw.right c
      rw [hu2]
      cases u with
      | nil => cases hc
      | cons d ds => simpa using hc
  · rintro ⟨post, hw⟩
    refine ⟨post ++ r, by rw [hw.eq]; simp, hw.left, ?_⟩
    intro c hc
    cases post with
    | nil =>
      simp at hc
      exact eol_not_sym (hr c (List.mem_of_head? hc))
    | cons d ds => exact hw.right c (by simpa using hc)

theorem codeLine_eols {l r : Str} (hr : ∀ e ∈ r, e = '\r' ∨ e = '\n') : CodeLine (l ++ r) ↔ CodeLine l := by
  constructor
  · intro h w t hl hw
    have := h w (t ++ r) (by rw [hl]; simp) hw
    cases t with
    | nil =>
      simp at this
      exfalso
      rcases hr _ (List.mem_of_head? this) with h | h <;> cases h
    | cons d ds => simpa using this
  · intro h w t hl hw
    rcases List.append_eq_append_iff.mp hl with ⟨u, hu1, hu2⟩ | ⟨u, hu1, hu2⟩
    · exfalso
      rcases hr '#' (by rw [hu2]; simp) with h | h <;> cases h
    · cases u with
      | nil =>
        simp at hu2
        exfalso
        rcases hr '#' (by rw [← hu2]; simp) with h | h <;> cases h
      | cons d ds =>
        simp at hu2
        obtain ⟨rfl, rfl⟩ := hu2
        have := h w ds hu1 hw
        cases ds with
        | nil => cases this
        | cons x xs => simpa using this

theorem goodLine_eols {alnum : Char → Bool} (h : Alnum alnum) {l r name : Str} (hn : AsciiName name)
    (hr : ∀ e ∈ r, e = '\r' ∨ e = '\n') : GoodLine alnum name (l ++ r) ↔ GoodLine alnum name l := by
  unfold GoodLine
  rw [codeLine_eols hr, defLine_append h hr]
  apply imp_congr_right
  intro _
  constructor
  · intro hg a post hw
    obtain ⟨post', hw'⟩ := (wordAt_eols hn hr).mpr ⟨post, hw⟩
    exact hg a post' hw'
  · intro hg a post hw
    obtain ⟨post', hw'⟩ := (wordAt_eols hn hr).mp ⟨post, hw⟩
    exact hg a post' hw'

theorem lines_pieces {P : Str → Prop} (h0 : P []) (hP : ∀ l, P (l ++ ['\n']) ↔ P l) (n : Nat) : ∀ content : Str, content.length ≤ n →
    ((∀ pre l post, IsLine content pre l post → P l) ↔ ∀ piece ∈ splitInclusive '\n' content, P piece) := by
  have single : ∀ content : Str, '\n' ∉ content →
      ((∀ pre l post, IsLine content pre l post → P l) ↔ ∀ piece ∈ splitInclusive '\n' content, P piece) := by
    intro content hc
    rw [splitInclusive_single hc]
    constructor
    · intro h piece hp
      split at hp
      · cases hp
      · simp at hp
        subst hp
        exact h [] piece [] ((isLine_single hc).mpr ⟨rfl, rfl, rfl⟩)
    · intro h pre l post hl
      obtain ⟨_, rfl, _⟩ := (isLine_single hc).mp hl
      by_cases hnil : l = []
      · rw [hnil]; exact h0
      · exact h l (by rw [if_neg hnil]; simp)
  induction n with
  | zero =>
    intro content hlen
    obtain rfl : content = [] := List.length_eq_zero_iff.mp (by omega)
    exact single [] (by simp)
  | succ n ih =>
    intro content hlen
    rcases nl_cases content with hc | ⟨l, rest, rfl, hl⟩
    · exact single content hc
    · rw [splitInclusive_nl hl]
      have hih := ih rest (by simp at hlen; omega)
      constructor
      · intro h piece hp
        rcases List.mem_cons.mp hp with rfl | hp
        · rw [hP]
          exact h [] l _ ((isLine_cons hl).mpr (.inl ⟨rfl, rfl, rfl⟩))
        · refine hih.mp ?_ piece hp
          intro pre m post hm
          exact h _ m post ((isLine_cons hl).mpr (.inr ⟨pre, rfl, hm⟩))
      · intro h pre m post hm
        rcases (isLine_cons hl).mp hm with ⟨_, rfl, _⟩ | ⟨pre', _, hm⟩
        · rw [← hP]; exact h _ (by simp)
        · exact hih.mpr (fun piece hp => h piece (by simp [hp])) pre' m post hm

theorem wordAt_nil {a name post : Str} (hn : AsciiName name) : ¬ WordAt [] a name post := by
  intro h
  obtain ⟨⟨c, cs, hc, _⟩, _⟩ := hn
  have := h.eq
  rw [hc] at this
  simp at this

theorem onlyDefined_iff {alnum : Char → Bool} (h : Alnum alnum) {content name : Str} (hn : AsciiName name) :
    OnlyDefined alnum content name ↔ ∀ piece ∈ splitInclusive '\n' content, GoodLine alnum name piece := by
  rw [← lines_pieces (P := GoodLine alnum name) (fun _ a post hw => absurd hw (wordAt_nil hn))
    (fun l => goodLine_eols h hn (by simp)) content.length content (Nat.le_refl _)]
  unfold OnlyDefined WordIn GoodLine
  constructor
  · intro hg pre l post hl hcode a post' hw
    exact hg l a ⟨pre, post, post', hl, hcode, hw⟩
  · rintro hg l a ⟨pre, post, post', hl, hcode, hw⟩
    exact hg pre l post hl hcode a post' hw

theorem sum_le_sum_iff {α} (f g : α → Nat) (l : List α) (h : ∀ x ∈ l, f x ≤ g x) :
    (l.map f).sum ≤ (l.map g).sum ∧ ((l.map g).sum ≤ (l.map f).sum ↔ ∀ x ∈ l, g x ≤ f x) := by
  induction l with
  | nil => simp
  | cons a l ih =>
    obtain ⟨h1, h2⟩ := ih (fun x hx => h x (by simp [hx]))
    have ha := h a (by simp)
    simp only [List.map_cons, List.sum_cons]
    refine ⟨by omega, ?_⟩
    constructor
    · intro hle x hx
      rcases List.mem_cons.mp hx with rfl | hx
      · omega
      · exact h2.mp (by omega) x hx
    · intro hall
      have := h2.mpr (fun x hx => hall x (by simp [hx]))
      have := hall a (by simp)
      omega

theorem count_flatMap_sum {α β} [BEq β] (x : β) (f : α → List β) (l : List α) :
    (l.flatMap f).count x = (l.map (fun a => (f a).count x)).sum := by
  induction l with
  | nil => rfl
  | cons a l ih => simp [List.flatMap_cons, ih]

/-- The number of occurrences in a file, line by line. -/
theorem scanSymbols_count (content name : Str) :
    (scanSymbols content).count name = ((splitInclusive '\n' content).map (fun p => lineCount (stripEol p) name)).sum := by
  unfold scanSymbols rustLines
  rw [count_flatMap_sum, List.map_map]
  rfl

theorem scanLines_count {alnum : Char → Bool} (name : Str) : ∀ (ls : List Str) (off no : Nat),
    ((scanLines alnum off no ls).map (·.name)).count name = (ls.map (fun p => lineDefs alnum (stripEols p) name)).sum := by
  intro ls
  induction ls with
  | nil => intro off no; rfl
  | cons l ls ih =>
    intro off no
    unfold scanLines lineDefs
    cases hd : definedName alnum (stripEols l) with
    | none => simp [ih, hd, lineDefs]
    | some n =>
      simp only [List.map_cons, List.sum_cons, hd]
      rw [List.count_cons, ih]
      by_cases hnn : n = name
      · simp [hnn, lineDefs]; omega
      · simp [hnn, lineDefs]

theorem scanAssigns_count (alnum : Char → Bool) (content name : Str) :
    ((scanAssigns alnum content).map (·.name)).count name = ((splitInclusive '\n' content).map (fun p => lineDefs alnum (stripEols p) name)).sum :=
  scanLines_count _ _ _ _

theorem lineDefs_strip {alnum : Char → Bool} (h : Alnum alnum) (p name : Str) :
    lineDefs alnum (stripEols p) name = lineDefs alnum (stripEol p) name := by
  unfold lineDefs
  have : definedName alnum (stripEols p) = some name ↔ definedName alnum (stripEol p) = some name := by
    rw [definedName_piece h, definedName_iff h]
    obtain ⟨r, hr, he⟩ := stripEol_eols p
    conv => lhs; rw [hr]
    exact defLine_append h he
  simp only [this]

/-- In a file there are at least as many occurrences of a name as definitions, and no more iff it only occurs in definitions. -/
theorem file_key {alnum : Char → Bool} (h : Alnum alnum) {name : Str} (hn : AsciiName name) (content : Str) :
    ((scanAssigns alnum content).map (·.name)).count name ≤ (scanSymbols content).count name ∧
    ((scanSymbols content).count name ≤ ((scanAssigns alnum content).map (·.name)).count name ↔ OnlyDefined alnum content name) := by
  rw [scanSymbols_count, scanAssigns_count]
  obtain ⟨h1, h2⟩ := sum_le_sum_iff (fun p => lineDefs alnum (stripEols p) name) (fun p => lineCount (stripEol p) name)
    (splitInclusive '\n' content) (fun p _ => by rw [lineDefs_strip h]; exact (line_key h hn).1)
  refine ⟨h1, h2.trans ?_⟩
  rw [onlyDefined_iff h hn]
  apply forall_congr'
  intro p
  apply imp_congr_right
  intro _
  rw [lineDefs_strip h, (line_key h hn).2]
  obtain ⟨r, hr, he⟩ := stripEol_eols p
  conv => rhs; rw [hr]
  exact (goodLine_eols h hn he).symm

/-- **C49**: the scan finds the words of the code lines. -/
theorem C49_mentioned {content name : Str} (hn : AsciiName name) : name ∈ scanSymbols content ↔ Mentioned content name := by
  have key := lines_pieces (P := fun l => ¬ (CodeLine l ∧ ∃ a post, WordAt l a name post))
    (fun ⟨_, a, post, hw⟩ => wordAt_nil hn hw)
    (fun l => by
      rw [codeLine_eols (by simp)]
      have : (∃ a post, WordAt (l ++ ['\n']) a name post) ↔ ∃ a post, WordAt l a name post :=
        exists_congr fun a => wordAt_eols hn (by simp)
      rw [this]) content.length content (Nat.le_refl _)
  have e1 : Mentioned content name ↔ ¬ ∀ pre l post, IsLine content pre l post → ¬ (CodeLine l ∧ ∃ a post, WordAt l a name post) := by
    unfold Mentioned WordIn
    constructor
    · rintro ⟨l, a, pre, post, post', hl, hcode, hw⟩ hall
      exact hall pre l post hl ⟨hcode, a, post', hw⟩
    · intro hno
      apply Classical.byContradiction
      intro hc
      apply hno
      rintro pre l post hl ⟨hcode, a, post', hw⟩
      exact hc ⟨l, a, pre, post, post', hl, hcode, hw⟩
  have e2 : name ∈ scanSymbols content ↔ ¬ ∀ piece ∈ splitInclusive '\n' content, ¬ (CodeLine piece ∧ ∃ a post, WordAt piece a name post) := by
    have hpiece : ∀ p, (name ∈ (if skippedComment (stripEol p) then [] else symbolsOf (stripEol p).length (stripEol p))) ↔
        CodeLine p ∧ ∃ a post, WordAt p a name post := by
      intro p
      obtain ⟨r, hr, he⟩ := stripEol_eols p
      have hc : CodeLine p ↔ CodeLine (stripEol p) := by
        conv => lhs; rw [hr]
        exact codeLine_eols he
      have hw : (∃ a post, WordAt p a name post) ↔ ∃ a post, WordAt (stripEol p) a name post := by
        conv => lhs; rw [hr]
        exact exists_congr fun a => wordAt_eols hn he
      rw [hc, hw, ← codeLine_iff, ← count_pos_iff hn]
      cases skippedComment (stripEol p) <;> simp
    unfold scanSymbols rustLines
    simp only [List.mem_flatMap, List.mem_map]
    constructor
    · rintro ⟨l, ⟨p, hp, rfl⟩, hm⟩ hall
      exact hall p hp ((hpiece p).mp hm)
    · intro hno
      apply Classical.byContradiction
      intro hc
      apply hno
      intro p hp hx
      exact hc ⟨_, ⟨p, hp, rfl⟩, (hpiece p).mpr hx⟩
  rw [e1, e2, key]

/-- Only ASCII identifiers are ever found. -/
theorem scanSymbols_ascii {content w : Str} (h : w ∈ scanSymbols content) : AsciiName w := by
  unfold scanSymbols at h
  obtain ⟨l, _, hw⟩ := List.mem_flatMap.mp h
  split at hw
  · cases hw
  · exact symbolsOf_ascii (Nat.le_refl _) hw

end Jarl

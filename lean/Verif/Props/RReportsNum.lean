import Verif.Spec.RReports
import Verif.RReports
/-!
# C55: reading numbers
-/
namespace Jarl
open Spec

theorem digitsVal_eq (ds : Str) (n : Nat) (h : AllDigits ds) : digitsVal ds n = some (ds.foldl (fun n c => 10 * n + (c.toNat - '0'.toNat)) n) := by
  induction ds generalizing n with
  | nil => rfl
  | cons c cs ih =>
    have hc : c.isDigit = true := h c (by simp)
    rw [digitsVal, if_pos hc, ih _ (fun d hd => h d (by simp [hd]))]
    rfl

theorem digitsVal_some {ds : Str} {n m : Nat} (h : digitsVal ds n = some m) : AllDigits ds := by
  induction ds generalizing n with
  | nil => intro c hc; cases hc
  | cons c cs ih =>
    rw [digitsVal] at h
    split at h
    next hc => intro d hd; rcases List.mem_cons.mp hd with rfl | hd
               · exact hc
               · exact ih h d hd
    next => cases h

theorem digitsVal_iff {ds : Str} {m : Nat} : digitsVal ds 0 = some m ↔ AllDigits ds ∧ m = decimal ds := by
  constructor
  · intro h
    have := digitsVal_some h
    rw [digitsVal_eq _ _ this] at h
    exact ⟨this, by injection h with h; exact h.symm⟩
  · rintro ⟨h, rfl⟩; exact digitsVal_eq _ _ h

theorem isDigit_cases {c : Char} (h : c.isDigit = true) : 48 ≤ c.toNat ∧ c.toNat ≤ 57 := by
  simp only [Char.isDigit, Bool.and_eq_true, decide_eq_true_eq] at h
  exact ⟨UInt32.le_iff_toNat_le.mp h.1, UInt32.le_iff_toNat_le.mp h.2⟩

theorem toNat_zero {c : Char} (h : c.isDigit = true) : c.toNat - '0'.toNat = 0 ↔ c = '0' := by
  obtain ⟨h1, _⟩ := isDigit_cases h
  constructor
  · intro h0
    have h48 : '0'.toNat = 48 := rfl
    have : c.toNat = 48 := by omega
    apply Char.ext
    apply UInt32.toNat_inj.mp
    exact this
  · rintro rfl; rfl

theorem foldl_zero {ds : Str} (h : AllDigits ds) (n : Nat) :
    ds.foldl (fun n c => 10 * n + (c.toNat - '0'.toNat)) n ≠ 0 ↔ n ≠ 0 ∨ ∃ c ∈ ds, c ≠ '0' := by
  induction ds generalizing n with
  | nil => simp
  | cons c cs ih =>
    have hc := toNat_zero (h c (by simp))
    rw [List.foldl_cons, ih (fun d hd => h d (by simp [hd]))]
    by_cases h0 : c = '0'
    · subst h0
      have : ('0' : Char).toNat - '0'.toNat = 0 := rfl
      simp only [this, List.mem_cons, exists_eq_or_imp, ne_eq, not_true_eq_false, false_or]
      constructor <;> rintro (a | b) <;> first | exact Or.inr b | (left; omega)
    · have : c.toNat - '0'.toNat ≠ 0 := fun hz => h0 (hc.mp hz)
      constructor
      · intro _; exact Or.inr ⟨c, by simp, h0⟩
      · intro _; left; omega

theorem decimal_ne_zero {ds : Str} (h : AllDigits ds) : decimal ds ≠ 0 ↔ ∃ c ∈ ds, c ≠ '0' := by
  rw [decimal, foldl_zero h]; simp

theorem L_notDigit : ('L' : Char).isDigit = false := by decide

theorem stripL_digits {ds : Str} (h : AllDigits ds) : stripL ds = ds := by
  rw [stripL, if_neg]
  intro hl
  have := h 'L' (List.mem_of_getLast? hl)
  exact absurd this (by decide)

theorem stripL_L (ds : Str) : stripL (ds ++ ['L']) = ds := by
  simp [stripL]

theorem stripL_cases (s : Str) : s = stripL s ∨ s = stripL s ++ ['L'] := by
  rw [stripL]
  split
  next h =>
    right
    obtain ⟨ys, rfl⟩ := List.getLast?_eq_some_iff.mp h
    simp
  next => exact Or.inl rfl

/-- Integers: what `parse` makes of them. -/
theorem intLit_iff {s b} : IntLit s b ↔ AllDigits (stripL s) ∧ stripL s ≠ [] ∧ (b = true ↔ decimal (stripL s) ≠ 0) := by
  constructor
  · rintro ⟨ds, hd, hne, hs, hb⟩
    have : stripL s = ds := by
      rcases hs with rfl | rfl
      · exact stripL_digits hd
      · exact stripL_L ds
    rw [this, decimal_ne_zero hd]
    exact ⟨hd, hne, hb⟩
  · rintro ⟨hd, hne, hb⟩
    rw [decimal_ne_zero hd] at hb
    exact ⟨stripL s, hd, hne, stripL_cases s, hb⟩

theorem intLit_unique {s b b'} (h : IntLit s b) (h' : IntLit s b') : b = b' := by
  have h1 := (intLit_iff.mp h).2.2
  have h2 := (intLit_iff.mp h').2.2
  rw [← h2] at h1
  cases b <;> cases b' <;> simp at h1 <;> rfl

theorem parseI64_iff {s n} : parseI64 s = some n ↔ s ≠ [] ∧ AllDigits s ∧ n = decimal s ∧ n ≤ 9223372036854775807 := by
  rw [parseI64]
  by_cases hne : s = []
  · simp [hne]
  · rw [if_neg hne]
    cases hd : digitsVal s 0 with
    | none =>
      simp only [ne_eq, hne, not_false_eq_true, true_and, false_iff, reduceCtorEq]
      rintro ⟨ha, -, -⟩
      rw [digitsVal_eq _ _ ha] at hd
      cases hd
    | some m =>
      obtain ⟨ha, rfl⟩ := digitsVal_iff.mp hd
      simp only [ne_eq, hne, not_false_eq_true, true_and]
      split
      next hle =>
        constructor
        · intro h; injection h with h; exact ⟨ha, h.symm, h ▸ hle⟩
        · rintro ⟨-, rfl, -⟩; rfl
      next hle =>
        constructor
        · intro h; cases h
        · rintro ⟨-, rfl, h⟩; exact absurd h hle

theorem expSign_eq (cs : Str) : (cs = '-' :: (expSign cs).2 ∧ (expSign cs).1 = true) ∨ (cs = '+' :: (expSign cs).2 ∧ (expSign cs).1 = false) ∨
    (cs = (expSign cs).2 ∧ (expSign cs).1 = false) := by
  rw [expSign.eq_def]
  split
  · exact Or.inl ⟨rfl, rfl⟩
  · exact Or.inr (Or.inl ⟨rfl, rfl⟩)
  · exact Or.inr (Or.inr ⟨rfl, rfl⟩)

theorem expSign_digits {ds : Str} (ha : AllDigits ds) : expSign ds = (false, ds) := by
  rw [expSign.eq_def]
  split
  · have := isDigit_cases (ha '-' (by simp)); exact absurd this.1 (by decide)
  · have := isDigit_cases (ha '+' (by simp)); exact absurd this.1 (by decide)
  · rfl

theorem parseExp_cons {c : Char} {cs : Str} {e : Int} (hc : c = 'e' ∨ c = 'E') :
    parseExp (c :: cs) = some e ↔ AllDigits (expSign cs).2 ∧ (expSign cs).2 ≠ [] ∧ e = if (expSign cs).1 then -(decimal (expSign cs).2 : Int) else decimal (expSign cs).2 := by
  show (if c = 'e' ∨ c = 'E' then _ else _) = _ ↔ _
  rw [if_pos hc]
  by_cases hne : (expSign cs).2 = []
  · simp [hne]
  · rw [if_neg hne]
    cases hd : digitsVal (expSign cs).2 0 with
    | none =>
      simp only [false_iff, reduceCtorEq]
      rintro ⟨ha, -, -⟩
      rw [digitsVal_eq _ _ ha] at hd
      cases hd
    | some m =>
      obtain ⟨ha, rfl⟩ := digitsVal_iff.mp hd
      simp only [Option.some.injEq]
      constructor
      · intro h; exact ⟨ha, hne, h.symm⟩
      · rintro ⟨-, -, h⟩; exact h.symm

theorem parseExp_iff {x : Str} {e : Int} : parseExp x = some e ↔ ExpLit x e := by
  constructor
  · intro h
    cases x with
    | nil => injection h with h; exact Or.inl ⟨rfl, h.symm⟩
    | cons c cs =>
      right
      by_cases hc : c = 'e' ∨ c = 'E'
      · obtain ⟨ha, hne, he⟩ := (parseExp_cons hc).mp h
        refine ⟨c, _, hc, ha, hne, ?_⟩
        rcases expSign_eq cs with ⟨h1, h2⟩ | ⟨h1, h2⟩ | ⟨h1, h2⟩ <;> rw [h2] at he
        · exact Or.inr (Or.inr ⟨by rw [← h1], he⟩)
        · exact Or.inr (Or.inl ⟨by rw [← h1], he⟩)
        · exact Or.inl ⟨by rw [← h1], he⟩
      · have : parseExp (c :: cs) = none := if_neg hc
        rw [this] at h; cases h
  · rintro (⟨rfl, rfl⟩ | ⟨c, ds, hc, ha, hne, h⟩)
    · rfl
    · rcases h with ⟨rfl, rfl⟩ | ⟨rfl, rfl⟩ | ⟨rfl, rfl⟩
      · rw [parseExp_cons hc, expSign_digits ha]; exact ⟨ha, hne, rfl⟩
      · rw [parseExp_cons hc]; exact ⟨ha, hne, rfl⟩
      · rw [parseExp_cons hc]; exact ⟨ha, hne, rfl⟩

/-- The part behind the digits. -/
theorem expLit_head {x : Str} {e : Int} (h : ExpLit x e) : ∀ c ∈ x.head?, c.isDigit = false ∧ c ≠ '.' := by
  rcases h with ⟨rfl, -⟩ | ⟨c, ds, hc, -, -, h⟩
  · intro c h; cases h
  · have hx : x.head? = some c := by rcases h with ⟨rfl, -⟩ | ⟨rfl, -⟩ | ⟨rfl, -⟩ <;> rfl
    intro d hd
    rw [hx] at hd; cases hd
    rcases hc with rfl | rfl <;> decide

theorem takeWhile_digits {a r : Str} (ha : AllDigits a) (hr : ∀ c ∈ r.head?, c.isDigit = false) :
    (a ++ r).takeWhile Char.isDigit = a ∧ (a ++ r).dropWhile Char.isDigit = r := by
  induction a with
  | nil =>
    cases r with
    | nil => exact ⟨rfl, rfl⟩
    | cons c r => have := hr c rfl; simp [this]
  | cons c a ih =>
    have hc := ha c (by simp)
    have := ih (fun d hd => ha d (by simp [hd]))
    simp [hc, this.1, this.2]

theorem parseF64_point {a b x : Str} (ha : AllDigits a) (hb : AllDigits b) (hx : ∀ c ∈ x.head?, c.isDigit = false) :
    parseF64 (a ++ '.' :: (b ++ x)) = numVal a b x := by
  have h1 := takeWhile_digits (r := '.' :: (b ++ x)) ha (by intro c h; cases h; decide)
  have h2 := takeWhile_digits hb hx
  rw [parseF64, h1.1, h1.2]
  simp only [h2.1, h2.2]

theorem parseF64_whole {a x : Str} (ha : AllDigits a) (hx : ∀ c ∈ x.head?, c.isDigit = false ∧ c ≠ '.') :
    parseF64 (a ++ x) = numVal a [] x := by
  have h1 := takeWhile_digits (r := x) ha (fun c h => (hx c h).1)
  rw [parseF64, h1.1, h1.2]
  split
  next => exact absurd rfl (hx '.' rfl).2
  next => rfl

theorem takeWhile_digit_all (s : Str) : AllDigits (s.takeWhile Char.isDigit) := by
  intro c hc
  induction s with
  | nil => simp at hc
  | cons d s ih =>
    rw [List.takeWhile_cons] at hc
    split at hc
    next hd => rcases List.mem_cons.mp hc with rfl | hc
               · exact hd
               · exact ih hc
    next => cases hc

theorem dropWhile_digit_head (s : Str) : ∀ c ∈ (s.dropWhile Char.isDigit).head?, c.isDigit = false := by
  intro c hc
  have := List.head?_dropWhile_not Char.isDigit s
  cases h : (s.dropWhile Char.isDigit).head? with
  | none => rw [h] at hc; cases hc
  | some d => rw [h] at hc this; cases hc; simpa using this

/-- Every text is of one of the two forms. -/
theorem parseF64_parts (s : Str) : ∃ a b x, AllDigits a ∧ AllDigits b ∧ parseF64 s = numVal a b x ∧ (s = a ++ '.' :: (b ++ x) ∨ (b = [] ∧ s = a ++ x)) := by
  have hs : s = s.takeWhile Char.isDigit ++ s.dropWhile Char.isDigit := (List.takeWhile_append_dropWhile).symm
  have ha := takeWhile_digit_all s
  have hh := dropWhile_digit_head s
  generalize s.takeWhile Char.isDigit = a at hs ha
  generalize s.dropWhile Char.isDigit = r at hs hh
  subst hs
  by_cases hp : r.head? = some '.'
  · cases r with
    | nil => cases hp
    | cons c r =>
      injection hp with hp; subst hp
      have hr : r = r.takeWhile Char.isDigit ++ r.dropWhile Char.isDigit := (List.takeWhile_append_dropWhile).symm
      have hb := takeWhile_digit_all r
      have hx := dropWhile_digit_head r
      generalize r.takeWhile Char.isDigit = b at hr hb
      generalize r.dropWhile Char.isDigit = x at hr hx
      subst hr
      exact ⟨a, b, x, ha, hb, parseF64_point ha hb hx, Or.inl rfl⟩
  · refine ⟨a, [], r, ha, (by intro c h; cases h), parseF64_whole ha ?_, Or.inr ⟨rfl, rfl⟩⟩
    intro c hc
    refine ⟨hh c hc, ?_⟩
    rintro rfl; exact hp hc

/-- The condition on the value in the specification. -/
theorem f64NonZero_iff {m : Nat} {e : Int} {k : Nat} :
    f64NonZero m (e - k) = true ↔ if 0 ≤ e - (k : Int) then m ≠ 0 else 10 ^ ((k : Int) - e).toNat < m * 2 ^ 1075 := by
  rw [f64NonZero]
  split
  · simp only [decide_eq_true_eq]
  · rw [show -(e - (k : Int)) = (k : Int) - e by omega, decide_eq_true_eq]

theorem numVal_some {a b x c} (ha : AllDigits a) (hb : AllDigits b) (h : numVal a b x = some c) :
    a ++ b ≠ [] ∧ ∃ e, ExpLit x e ∧ (c = true ↔ if 0 ≤ e - (b.length : Int) then decimal (a ++ b) ≠ 0 else 10 ^ ((b.length : Int) - e).toNat < decimal (a ++ b) * 2 ^ 1075) := by
  rw [numVal] at h
  split at h
  next => cases h
  next hne =>
    have hab : AllDigits (a ++ b) := by
      intro d hd; rcases List.mem_append.mp hd with h | h
      · exact ha d h
      · exact hb d h
    rw [digitsVal_iff.mpr ⟨hab, rfl⟩] at h
    cases he : parseExp x with
    | none => rw [he] at h; cases h
    | some e =>
      rw [he] at h
      injection h with h
      refine ⟨hne, e, parseExp_iff.mp he, ?_⟩
      rw [← f64NonZero_iff, h]

theorem numVal_of {a b x c e} (ha : AllDigits a) (hb : AllDigits b) (hne : a ++ b ≠ []) (he : ExpLit x e)
    (hc : c = true ↔ if 0 ≤ e - (b.length : Int) then decimal (a ++ b) ≠ 0 else 10 ^ ((b.length : Int) - e).toNat < decimal (a ++ b) * 2 ^ 1075) :
    numVal a b x = some c := by
  have hab : AllDigits (a ++ b) := by
    intro d hd; rcases List.mem_append.mp hd with h | h
    · exact ha d h
    · exact hb d h
  rw [numVal, if_neg hne, digitsVal_iff.mpr ⟨hab, rfl⟩, parseExp_iff.mpr he]
  rw [← f64NonZero_iff] at hc
  show some (f64NonZero _ _) = some c
  congr 1
  generalize f64NonZero _ _ = d at hc
  cases c <;> cases d <;> simp at hc <;> rfl

theorem allDigits_zero {b : Str} (hb : AllDigits b) : AllDigits ('0' :: b) := by
  intro c hc; rcases List.mem_cons.mp hc with rfl | hc
  · decide
  · exact hb c hc

/-- Doubles: what `parse` makes of them (with a zero in front of a point). -/
theorem doubleLit_iff {s b} : DoubleLit s b ↔ parseF64 (if s.head? = some '.' then '0' :: s else s) = some b := by
  constructor
  · rintro ⟨a, d, x, e, ha, hd, hne, he, hs, hb⟩
    have hx := expLit_head he
    cases a with
    | cons c a =>
      have hc := isDigit_cases (ha c (by simp))
      have hc' : c ≠ '.' := by rintro rfl; exact absurd hc.1 (by decide)
      have hne' : (c :: a) ++ d ≠ [] := by simp
      have hh : s.head? = some c := by rcases hs with rfl | ⟨rfl, rfl⟩ <;> rfl
      rw [if_neg (by rw [hh]; simpa using hc')]
      rcases hs with rfl | ⟨rfl, rfl⟩
      · rw [List.append_assoc]; show parseF64 (c :: a ++ '.' :: (d ++ x)) = _; rw [parseF64_point ha hd (fun c h => (hx c h).1)]; exact numVal_of ha hd hne' he hb
      · rw [parseF64_whole ha hx]; exact numVal_of ha hd hne' he hb
    | nil =>
      rcases hs with rfl | ⟨rfl, rfl⟩
      · rw [if_pos (by rfl), show '0' :: ([] ++ '.' :: d ++ x) = ['0'] ++ '.' :: (d ++ x) by simp, parseF64_point (allDigits_zero ha) hd (fun c h => (hx c h).1)]
        refine numVal_of (allDigits_zero ha) hd (by simp) he ?_
        rw [hb]
        have : decimal (['0'] ++ d) = decimal ([] ++ d) := rfl
        rw [this]
      · have h1 := hne rfl
        exact absurd rfl (hx '.' h1).2
  · intro h
    by_cases hp : s.head? = some '.'
    · rw [if_pos hp] at h
      cases s with
      | nil => cases hp
      | cons c r =>
        injection hp with hp; subst hp
        have hr : r = r.takeWhile Char.isDigit ++ r.dropWhile Char.isDigit := (List.takeWhile_append_dropWhile).symm
        have hb := takeWhile_digit_all r
        have hx := dropWhile_digit_head r
        generalize r.takeWhile Char.isDigit = d at hr hb
        generalize r.dropWhile Char.isDigit = x at hr hx
        subst hr
        have h0 : AllDigits ([] : Str) := by intro c h; cases h
        rw [show '0' :: '.' :: (d ++ x) = ['0'] ++ '.' :: (d ++ x) by simp, parseF64_point (allDigits_zero h0) hb hx] at h
        obtain ⟨hne, e, he, hb'⟩ := numVal_some (allDigits_zero h0) hb h
        exact ⟨[], d, x, e, h0, hb, fun _ => rfl, he, Or.inl rfl, hb'⟩
    · rw [if_neg hp] at h
      obtain ⟨a, d, x, ha, hd, hn, hs⟩ := parseF64_parts s
      rw [hn] at h
      obtain ⟨hne, e, he, hb'⟩ := numVal_some ha hd h
      refine ⟨a, d, x, e, ha, hd, ?_, he, by simpa using hs, hb'⟩
      rintro rfl
      rcases hs with rfl | ⟨rfl, rfl⟩
      · rfl
      · exact absurd rfl hne

end Jarl

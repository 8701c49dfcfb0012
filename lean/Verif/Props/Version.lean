import Verif.Version
import Verif.Spec.Version
/-!
# C25: R version strings
-/
namespace Jarl
open Spec

theorem digit_range (c : Char) : ('0' ≤ c ∧ c ≤ '9') ↔ (48 ≤ c.toNat ∧ c.toNat ≤ 57) := by
  simp only [Char.le_def, UInt32.le_iff_toNat_le]
  exact Iff.rfl

theorem foldl_ge (d : Str) (a : Nat) :
    a ≤ d.foldl (fun n c => 10 * n + (c.toNat - '0'.toNat)) a := by
  induction d generalizing a with
  | nil => simp
  | cons c d ih => simp only [List.foldl_cons]; have := ih (10 * a + (c.toNat - '0'.toNat)); omega

theorem parseDigits_iff (d : Str) (a n : Nat) (ha : a < 4294967296) :
    parseDigits a d = some n ↔ (∀ c ∈ d, '0' ≤ c ∧ c ≤ '9') ∧
      n = d.foldl (fun n c => 10 * n + (c.toNat - '0'.toNat)) a ∧ n < 4294967296 := by
  induction d generalizing a with
  | nil =>
    simp [parseDigits]
    constructor
    · rintro rfl; exact ⟨rfl, ha⟩
    · exact fun h => h.1.symm
  | cons c d ih =>
    simp only [parseDigits, List.foldl_cons, List.mem_cons, forall_eq_or_imp]
    unfold digitVal
    rw [digit_range]
    by_cases hc : 48 ≤ c.toNat ∧ c.toNat ≤ 57
    · rw [if_pos hc]
      have e : a * 10 + (c.toNat - 48) = 10 * a + (c.toNat - '0'.toNat) := by
        have : '0'.toNat = 48 := rfl
        omega
      simp only []
      by_cases hb : a * 10 < 4294967296 ∧ a * 10 + (c.toNat - 48) < 4294967296
      · rw [if_pos hb, ih _ hb.2, e]
        constructor
        · rintro ⟨h1, h2⟩; exact ⟨⟨hc, h1⟩, h2⟩
        · rintro ⟨⟨_, h1⟩, h2⟩; exact ⟨h1, h2⟩
      · rw [if_neg hb]
        constructor
        · intro h; cases h
        · rintro ⟨_, h2, h3⟩
          have := foldl_ge d (10 * a + (c.toNat - '0'.toNat))
          omega
    · rw [if_neg hc]
      constructor
      · intro h; cases h
      · rintro ⟨⟨h, _⟩, _⟩; exact absurd h hc

theorem plus_not_digit : ¬ ('0' ≤ '+' ∧ '+' ≤ '9') := by decide

theorem parseU32_iff (s : Str) (n : Nat) : parseU32 s = some n ↔ Component s n := by
  have h0 : (0 : Nat) < 4294967296 := by decide
  unfold Component decimalValue
  have e32 : (2 : Nat) ^ 32 = 4294967296 := by decide
  rw [e32]
  match s with
  | [] =>
    simp only [parseU32]
    constructor
    · intro h; cases h
    · rintro ⟨d, h | h, hd, _⟩
      · exact absurd h.symm hd
      · cases h
  | [c] =>
    simp only [parseU32]
    split
    · rename_i hc; subst hc
      constructor
      · intro h; cases h
      · rintro ⟨d, h | h, hd, hall, _⟩
        · subst h; exact absurd (hall '+' (by simp)) plus_not_digit
        · simp at h; exact absurd h hd
    · rename_i hc
      rw [parseDigits_iff _ _ _ h0]
      constructor
      · rintro ⟨h1, h2⟩; exact ⟨[c], .inl rfl, by simp, h1, h2⟩
      · rintro ⟨d, h | h, hd, h1, h2⟩
        · subst h; exact ⟨h1, h2⟩
        · simp at h; exact absurd h.1 hc
  | c :: c' :: cs =>
    simp only [parseU32]
    split
    · rename_i hc; subst hc
      rw [parseDigits_iff _ _ _ h0]
      constructor
      · rintro ⟨h1, h2⟩; exact ⟨c' :: cs, .inr rfl, by simp, h1, h2⟩
      · rintro ⟨d, h | h, hd, h1, h2⟩
        · subst h; exact absurd (h1 '+' (by simp)) plus_not_digit
        · simp at h; subst h; exact ⟨h1, h2⟩
    · rename_i hc
      rw [parseDigits_iff _ _ _ h0]
      constructor
      · rintro ⟨h1, h2⟩; exact ⟨c :: c' :: cs, .inl rfl, by simp, h1, h2⟩
      · rintro ⟨d, h | h, hd, h1, h2⟩
        · subst h; exact ⟨h1, h2⟩
        · simp at h; exact absurd h.1 hc

theorem Component_no_dot {s n} (h : Component s n) : '.' ∉ s := by
  obtain ⟨d, hs, _, hd, _⟩ := h
  have : '.' ∉ d := fun hm => absurd (hd '.' hm) (by decide)
  rcases hs with rfl | rfl
  · exact this
  · simp [this]

/-- C25: a version string is accepted exactly when it has the form `x.y` or `x.y.z` with decimal 32-bit
components, and then yields exactly these numbers (patch 0 when missing). -/
theorem C25_version_strings (s : Str) (v : RVersion) : parseRVersion s = some v ↔ IsVersion s v := by
  unfold parseRVersion IsVersion
  constructor
  · intro h
    split at h
    · rename_i a b hs
      obtain ⟨r, rfl, _, hr⟩ := splitOn_eq_cons.mp hs
      obtain ⟨rfl, _⟩ := splitOn_eq_singleton.mp hr
      simp only [Option.bind_eq_bind, Option.bind_eq_some_iff, Option.pure_def] at h
      obtain ⟨x, hx, y, hy, h⟩ := h
      cases h
      exact .inl ⟨a, r, rfl, (parseU32_iff _ _).mp hx, (parseU32_iff _ _).mp hy, rfl⟩
    · rename_i a b c hs
      obtain ⟨r, rfl, _, hr⟩ := splitOn_eq_cons.mp hs
      obtain ⟨r', rfl, _, hr'⟩ := splitOn_eq_cons.mp hr
      obtain ⟨rfl, _⟩ := splitOn_eq_singleton.mp hr'
      simp only [Option.bind_eq_bind, Option.bind_eq_some_iff, Option.pure_def] at h
      obtain ⟨x, hx, y, hy, z, hz, h⟩ := h
      cases h
      exact .inr ⟨a, b, r', rfl, (parseU32_iff _ _).mp hx, (parseU32_iff _ _).mp hy,
        (parseU32_iff _ _).mp hz⟩
    · cases h
  · obtain ⟨vx, vy, vz⟩ := v
    rintro (⟨a, b, rfl, ha, hb, hp⟩ | ⟨a, b, c, rfl, ha, hb, hc⟩)
    · simp only [] at hp ha hb
      subst hp
      rw [splitOn_append (Component_no_dot ha), splitOn_no (Component_no_dot hb)]
      simp [bind, Option.bind, (parseU32_iff _ _).mpr ha, (parseU32_iff _ _).mpr hb]
    · simp only [] at ha hb hc
      rw [splitOn_append (Component_no_dot ha), splitOn_append (Component_no_dot hb),
        splitOn_no (Component_no_dot hc)]
      simp [bind, Option.bind, (parseU32_iff _ _).mpr ha, (parseU32_iff _ _).mpr hb,
        (parseU32_iff _ _).mpr hc]

/-- C25, round trip: every version with 32-bit components is read back from its `x.y.z` rendering. -/
theorem C25_round_trip (v : RVersion) (h : v.major < 2 ^ 32 ∧ v.minor < 2 ^ 32 ∧ v.patch < 2 ^ 32) :
    parseRVersion (Nat.toDigits 10 v.major ++ '.' :: (Nat.toDigits 10 v.minor ++
      '.' :: Nat.toDigits 10 v.patch)) = some v := by
  have comp : ∀ n < 2 ^ 32, Component (Nat.toDigits 10 n) n := by
    intro n hn
    refine ⟨_, .inl rfl, Nat.toDigits_ne_nil, ?_, ?_, hn⟩
    · intro c hc
      have := Nat.isDigit_of_mem_toDigits (by decide) (by decide) hc
      simpa [Char.isDigit, Char.le_def] using this
    · have := @Nat.ofDigitChars_ten_toDigits n
      rw [Nat.ofDigitChars_eq_foldl] at this
      exact this.symm
  exact (C25_version_strings _ _).mpr (.inr ⟨_, _, _, rfl, comp _ h.1, comp _ h.2.1, comp _ h.2.2⟩)

example : parseRVersion (cs! "4.3") = some ⟨4, 3, 0⟩ := by decide
example : parseRVersion (cs! "4.10.2") = some ⟨4, 10, 2⟩ := by decide
example : parseRVersion (cs! "4") = none ∧ parseRVersion (cs! "4.x") = none ∧
  parseRVersion (cs! "4.3.1.0") = none ∧ parseRVersion (cs! "4.4294967296") = none := by decide

end Jarl

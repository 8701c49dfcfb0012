import Verif.Spec.Output
/-!
# What `serde_json` writes is read back (used for C60)
-/
namespace Jarl
open Spec

/-! ### Digits -/

theorem digits_digit {n : Nat} {c : Char} (h : c ∈ digits n) : c.isDigit = true :=
  Nat.isDigit_of_mem_toDigits (by decide) (by decide) h

theorem digits_ne_nil (n : Nat) : digits n ≠ [] := Nat.toDigits_ne_nil

theorem digits_value (n : Nat) : (digits n).foldl (fun n c => n * 10 + (c.toNat - '0'.toNat)) 0 = n := by
  have := @Nat.ofDigitChars_ten_toDigits n
  rw [Nat.ofDigitChars_eq_foldl] at this
  simp only [Nat.mul_comm] at this ⊢
  exact this

/-- No leading zero. -/
theorem digits_head (n : Nat) (h : (digits n).head? = some '0') : (digits n).length = 1 := by
  induction n using Nat.strongRecOn with
  | ind n ih =>
    unfold digits at *
    by_cases hn : n < 10
    · rw [Nat.toDigits_of_lt_base hn]; rfl
    · have hn' : 10 ≤ n := by omega
      have hd := Nat.toDigits_of_base_le (b := 10) (by decide) hn'
      rw [hd] at h ⊢
      have hne : Nat.toDigits 10 (n / 10) ≠ [] := Nat.toDigits_ne_nil
      have hh : (Nat.toDigits 10 (n / 10)).head? = some '0' := by
        cases hl : Nat.toDigits 10 (n / 10) with
        | nil => exact absurd hl hne
        | cons a l => rw [hl] at h; simpa using h
      have h1 := ih (n / 10) (by omega) hh
      -- a single digit that is zero: `n / 10 = 0`
      exfalso
      have hv := digits_value (n / 10)
      unfold digits at hv
      cases hl : Nat.toDigits 10 (n / 10) with
      | nil => exact absurd hl hne
      | cons a l =>
        rw [hl] at h1 hh hv
        have : l = [] := by simpa using h1
        subst this
        simp only [List.head?_cons, Option.some.injEq] at hh
        subst hh
        simp at hv
        omega

theorem readNat_digits (n : Nat) : readNat (digits n) = some n := by
  unfold readNat
  rw [if_neg, digits_value]
  rintro (h | h)
  · exact digits_ne_nil n h
  · obtain ⟨c, hc, h⟩ := List.any_eq_true.mp h
    simp [digits_digit hc] at h

/-! ### Strings -/

theorem hexVal_digit : ∀ n < 16, hexVal (hexDigit n) = some n := by decide

theorem escChar_read (c : Char) (s : Str) {x r : Str} (h : readStr s = some (x, r)) :
    readStr (escChar c ++ s) = some (c :: x, r) := by
  unfold escChar
  by_cases h1 : c = '"'
  · rw [if_pos h1]; subst h1; simp [readStr, h]
  rw [if_neg h1]
  by_cases h2 : c = '\\'
  · rw [if_pos h2]; subst h2; simp [readStr, h]
  rw [if_neg h2]
  by_cases h3 : c = Char.ofNat 8
  · rw [if_pos h3]; subst h3; simp [readStr, h]
  rw [if_neg h3]
  by_cases h4 : c = '\t'
  · rw [if_pos h4]; subst h4; simp [readStr, h]
  rw [if_neg h4]
  by_cases h5 : c = '\n'
  · rw [if_pos h5]; subst h5; simp [readStr, h]
  rw [if_neg h5]
  by_cases h6 : c = Char.ofNat 12
  · rw [if_pos h6]; subst h6; simp [readStr, h]
  rw [if_neg h6]
  by_cases h7 : c = '\r'
  · rw [if_pos h7]; subst h7; simp [readStr, h]
  rw [if_neg h7]
  by_cases h8 : c.toNat < 32
  · rw [if_pos h8]
    have ha : hexVal (hexDigit (c.toNat / 16)) = some (c.toNat / 16) := hexVal_digit _ (by omega)
    have hb : hexVal (hexDigit (c.toNat % 16)) = some (c.toNat % 16) := hexVal_digit _ (by omega)
    have h0 : hexVal '0' = some 0 := by decide
    have hs : ¬ (0xD800 ≤ c.toNat / 16 * 16 + c.toNat % 16 ∧ c.toNat / 16 * 16 + c.toNat % 16 < 0xE000) := by omega
    have hn : c.toNat / 16 * 16 + c.toNat % 16 = c.toNat := by omega
    simp [readStr, ha, hb, h0, h, hs]
    rw [hn]
    simp
  · rw [if_neg h8]
    have : ¬ (c.toNat < 32 ∨ c = '\\') := by simp [h8, h2]
    rw [List.singleton_append, readStr]
    · simp [this, h]
    · exact fun e => h1 e
    · intro a b c' d r e; exact absurd e h2
    · intro x r' e; exact absurd e h2

theorem readStr_esc (s r : Str) : readStr (s.flatMap escChar ++ '"' :: r) = some (s, r) := by
  induction s with
  | nil => rfl
  | cons c s ih =>
    rw [List.flatMap_cons, List.append_assoc]
    exact escChar_read c _ ih

/-! ### Values -/

/-- A number may end here. -/
def NumEnds (r : Str) : Prop := ∀ c, r.head? = some c → c.isDigit = false ∧ c ≠ '.' ∧ c ≠ 'e' ∧ c ≠ 'E'

theorem readNum_digits (n : Nat) (r : Str) (h : NumEnds r) : readNum (digits n ++ r) = some (n, r) := by
  have ht : (digits n ++ r).takeWhile Char.isDigit = digits n := by
    rw [List.takeWhile_append_of_pos (fun c hc => digits_digit hc)]
    cases r with
    | nil => simp
    | cons c r => simp [(h c rfl).1]
  have hd : (digits n ++ r).dropWhile Char.isDigit = r := by
    rw [List.dropWhile_append_of_pos (fun c hc => digits_digit hc)]
    cases r with
    | nil => simp
    | cons c r => simp [(h c rfl).1]
  unfold readNum
  simp only [ht, hd]
  rw [if_neg, digits_value]
  rintro (h1 | ⟨h1, h2⟩ | h1)
  · exact digits_ne_nil n h1
  · exact h2 (digits_head n h1)
  · cases r with
    | nil => simp at h1
    | cons c r =>
      have := h c rfl
      simp at h1
      rcases h1 with rfl | rfl | rfl <;> simp at this

theorem skip_line (level : Nat) (s : Str) : skip (jsonLine level ++ s) = skip s := by
  have : ∀ c ∈ jsonLine level, jsonWs c = true := by
    intro c hc
    simp only [jsonLine, List.mem_cons, List.mem_replicate] at hc
    rcases hc with rfl | ⟨_, rfl⟩ <;> decide
  unfold skip
  exact List.dropWhile_append_of_pos this

theorem skip_cons {c : Char} (h : jsonWs c = false) (s : Str) : skip (c :: s) = c :: s := by
  simp [skip, h]

/-- How a printed value starts. -/
theorem pretty_head (level : Nat) (j : Json) : ∃ c s, j.pretty level = c :: s ∧ jsonWs c = false ∧ c ≠ ']' ∧ c ≠ '}' := by
  cases j with
  | null => exact ⟨_, _, rfl, by decide, by decide, by decide⟩
  | bool b => cases b <;> exact ⟨_, _, rfl, by decide, by decide, by decide⟩
  | num n =>
    cases h : digits n with
    | nil => exact absurd h (digits_ne_nil n)
    | cons c s =>
      have hc : c.isDigit = true := digits_digit (n := n) (by rw [h]; simp)
      refine ⟨c, s, h, ?_, ?_, ?_⟩
      · simp only [jsonWs, Bool.or_eq_false_iff, decide_eq_false_iff_not]
        refine ⟨⟨⟨?_, ?_⟩, ?_⟩, ?_⟩ <;> (rintro rfl; simp at hc)
      · rintro rfl; simp at hc
      · rintro rfl; simp at hc
  | str s => exact ⟨_, _, rfl, by decide, by decide, by decide⟩
  | arr l => cases l <;> exact ⟨_, _, rfl, by decide, by decide, by decide⟩
  | obj l =>
    cases l with
    | nil => exact ⟨_, _, rfl, by decide, by decide, by decide⟩
    | cons p l => exact ⟨_, _, rfl, by decide, by decide, by decide⟩

theorem pretty_length (level : Nat) (j : Json) : 1 ≤ (j.pretty level).length := by
  obtain ⟨c, s, h, _⟩ := pretty_head level j
  simp [h]

theorem NumEnds_of {c : Char} (h : c.isDigit = false ∧ c ≠ '.' ∧ c ≠ 'e' ∧ c ≠ 'E') (s : Str) : NumEnds (c :: s) := by
  intro d hd
  simp at hd
  subst hd
  exact h

theorem elems_ends (level k : Nat) (l : List Json) (b : Char) (s : Str) :
    NumEnds (prettyElems level l ++ (jsonLine k ++ (b :: s))) := by
  cases l with
  | nil => exact NumEnds_of (by decide) _
  | cons x l => exact NumEnds_of (by decide) _

theorem fields_ends (level k : Nat) (l : List (Str × Json)) (b : Char) (s : Str) :
    NumEnds (prettyFields level l ++ (jsonLine k ++ (b :: s))) := by
  cases l with
  | nil => exact NumEnds_of (by decide) _
  | cons x l => exact NumEnds_of (by decide) _

/-- Read a value behind white space. -/
theorem readVal_skip (f : Nat) (s : Str) : readVal f (skip s) = readVal f s := by
  have : skip (skip s) = skip s := by
    unfold skip
    induction s with
    | nil => rfl
    | cons c s ih =>
      by_cases h : jsonWs c
      · simp [h]; exact ih
      · simp [h]
  cases f with
  | zero => simp [readVal]
  | succ f => rw [readVal, readVal, this]

theorem readVal_line (f level : Nat) (s : Str) : readVal f (jsonLine level ++ s) = readVal f s := by
  rw [← readVal_skip, skip_line, readVal_skip]

theorem readVal_blank (f : Nat) (s : Str) : readVal f (' ' :: s) = readVal f s := by
  rw [← readVal_skip]
  have : skip (' ' :: s) = skip s := by simp [skip, jsonWs]
  rw [this, readVal_skip]

theorem readElems_line (f level : Nat) (s : Str) : readElems f (jsonLine level ++ s) = readElems f s := by
  cases f with
  | zero => rw [readElems, readElems]
  | succ f => rw [readElems, readElems, readVal_line]

theorem readFields_line (f level : Nat) (s : Str) : readFields f (jsonLine level ++ s) = readFields f s := by
  cases f with
  | zero => rw [readFields, readFields]
  | succ f => rw [readFields, readFields, skip_line]

theorem pretty_arr (level : Nat) (x : Json) (xs : List Json) (r : Str) :
    (Json.arr (x :: xs)).pretty level ++ r = '[' :: (jsonLine (level + 1) ++ (x.pretty (level + 1) ++
      (prettyElems (level + 1) xs ++ (jsonLine level ++ (']' :: r))))) := by
  simp [Json.pretty]

theorem pretty_obj (level : Nat) (k : Str) (x : Json) (xs : List (Str × Json)) (r : Str) :
    (Json.obj ((k, x) :: xs)).pretty level ++ r = '{' :: (jsonLine (level + 1) ++ ('"' :: (k.flatMap escChar ++
      ('"' :: ':' :: ' ' :: (x.pretty (level + 1) ++ (prettyFields (level + 1) xs ++ (jsonLine level ++ ('}' :: r)))))))) := by
  simp [Json.pretty, jsonStr]

theorem readVal_arr {f : Nat} {s r : Str} (h : skip s = '[' :: r) (h2 : ∀ r', skip r ≠ ']' :: r') :
    readVal (f + 1) s = (readElems f (skip r)).map (fun (l, r'') => (.arr l, r'')) := by
  rw [readVal]
  simp only [h]

theorem readVal_obj {f : Nat} {s r : Str} (h : skip s = '{' :: r) (h2 : ∀ r', skip r ≠ '}' :: r') :
    readVal (f + 1) s = (readFields f (skip r)).map (fun (l, r'') => (.obj l, r'')) := by
  rw [readVal]
  simp only [h]

mutual
theorem readVal_pretty (level : Nat) : ∀ (j : Json) (f : Nat) (r : Str), (j.pretty level).length ≤ f → NumEnds r →
    readVal f (j.pretty level ++ r) = some (j, r)
  | j, 0, r, hf, _ => absurd (pretty_length level j) (by omega)
  | .null, f + 1, r, _, _ => by
    rw [readVal]; simp [Json.pretty, skip_cons (c := 'n') (by decide)]
  | .bool b, f + 1, r, _, _ => by
    rw [readVal]
    cases b
    · simp [Json.pretty, skip_cons (c := 'f') (by decide)]
    · simp [Json.pretty, skip_cons (c := 't') (by decide)]
  | .num n, f + 1, r, _, hr => by
    rw [readVal]
    obtain ⟨c, s, h, hw, _, _⟩ := pretty_head level (.num n)
    have hn : readNum (c :: (s ++ r)) = some (n, r) := by
      have := readNum_digits n r hr
      have e : digits n = c :: s := h
      rw [e] at this
      simpa using this
    have hc : c.isDigit = true := digits_digit (n := n) (by have e : digits n = c :: s := h; rw [e]; simp)
    rw [h, List.cons_append, skip_cons hw]
    split
    · rename_i e; cases e; simp at hc
    · rename_i e; cases e; simp at hc
    · rename_i e; cases e; simp at hc
    · rename_i e; simp at e; rw [e.1] at hc; simp at hc
    · rename_i e; simp at e; rw [e.1] at hc; simp at hc
    · rename_i e; simp at e; rw [e.1] at hc; simp at hc
    · rw [hn]; rfl
  | .str s, f + 1, r, _, _ => by
    rw [readVal]
    have : Json.pretty level (.str s) ++ r = '"' :: (s.flatMap escChar ++ '"' :: r) := by simp [Json.pretty, jsonStr]
    rw [this, skip_cons (by decide)]
    simp [readStr_esc]
  | .arr [], f + 1, r, _, _ => by
    rw [readVal]
    simp [Json.pretty, skip_cons (c := '[') (by decide), skip_cons (c := ']') (by decide)]
  | .arr (x :: xs), f + 1, r, hf, _ => by
    obtain ⟨c, s, h, hw, hb, _⟩ := pretty_head (level + 1) x
    have hl : (Json.pretty (level + 1) x ++ prettyElems (level + 1) xs).length + 1 ≤ f := by
      simp [Json.pretty, jsonLine] at hf ⊢; omega
    have hr : skip (jsonLine (level + 1) ++ (Json.pretty (level + 1) x ++ (prettyElems (level + 1) xs ++
        (jsonLine level ++ (']' :: r))))) =
        Json.pretty (level + 1) x ++ (prettyElems (level + 1) xs ++ (jsonLine level ++ (']' :: r))) := by
      rw [skip_line, h, List.cons_append, skip_cons hw]
    have he := readElems_pretty (level + 1) level x xs f r hl
    rw [pretty_arr, readVal_arr (skip_cons (by decide) _), hr, he]
    · rfl
    · intro r' e
      rw [hr, h] at e
      cases e
      exact hb rfl
  | .obj [], f + 1, r, _, _ => by
    rw [readVal]
    simp [Json.pretty, skip_cons (c := '{') (by decide), skip_cons (c := '}') (by decide)]
  | .obj ((k, x) :: xs), f + 1, r, hf, _ => by
    have hl : (Json.pretty (level + 1) x ++ prettyFields (level + 1) xs).length + 1 ≤ f := by
      simp [Json.pretty, jsonLine] at hf ⊢; omega
    have he := readFields_pretty (level + 1) level k x xs f r hl
    rw [pretty_obj, readVal_obj (skip_cons (by decide) _), skip_line, skip_cons (by decide), he]
    · rfl
    · intro r' e
      rw [skip_line, skip_cons (by decide)] at e
      cases e
termination_by _ f => f

theorem readElems_pretty (level k : Nat) : ∀ (x : Json) (xs : List Json) (f : Nat) (r : Str),
    (x.pretty level ++ prettyElems level xs).length + 1 ≤ f →
    readElems f (x.pretty level ++ (prettyElems level xs ++ (jsonLine k ++ (']' :: r)))) = some (x :: xs, r)
  | x, xs, 0, r, hf => by omega
  | x, [], f + 1, r, hf => by
    have hv := readVal_pretty level x f (jsonLine k ++ (']' :: r)) (by simp at hf ⊢; omega) (NumEnds_of (by decide) _)
    rw [readElems]
    simp only [prettyElems, List.nil_append]
    rw [hv]
    simp [skip_line, skip_cons (c := ']') (by decide)]
  | x, y :: ys, f + 1, r, hf => by
    have hx := pretty_length level x
    have hv := readVal_pretty level x f (prettyElems level (y :: ys) ++ (jsonLine k ++ (']' :: r)))
      (by simp at hf ⊢; omega) (elems_ends _ _ _ _ _)
    have hy := readElems_pretty level k y ys f r (by simp [prettyElems, jsonLine] at hf ⊢; omega)
    have hc : skip (prettyElems level (y :: ys) ++ (jsonLine k ++ (']' :: r))) =
        ',' :: (jsonLine level ++ (y.pretty level ++ (prettyElems level ys ++ (jsonLine k ++ (']' :: r))))) := by
      have : prettyElems level (y :: ys) ++ (jsonLine k ++ (']' :: r)) =
          ',' :: (jsonLine level ++ (y.pretty level ++ (prettyElems level ys ++ (jsonLine k ++ (']' :: r))))) := by
        simp [prettyElems]
      rw [this, skip_cons (by decide)]
    rw [readElems, hv]
    simp only [hc]
    rw [readElems_line, hy]
    rfl
termination_by _ _ f => f

theorem readFields_pretty (level k : Nat) : ∀ (key : Str) (x : Json) (xs : List (Str × Json)) (f : Nat) (r : Str),
    (x.pretty level ++ prettyFields level xs).length + 1 ≤ f →
    readFields f ('"' :: (key.flatMap escChar ++ ('"' :: ':' :: ' ' :: (x.pretty level ++ (prettyFields level xs ++
      (jsonLine k ++ ('}' :: r))))))) = some ((key, x) :: xs, r)
  | key, x, xs, 0, r, hf => by omega
  | key, x, [], f + 1, r, hf => by
    have hv := readVal_pretty level x f (jsonLine k ++ ('}' :: r)) (by simp at hf ⊢; omega) (NumEnds_of (by decide) _)
    rw [readFields]
    simp only [skip_cons (c := '"') (by decide), readStr_esc, skip_cons (c := ':') (by decide), prettyFields, List.nil_append]
    rw [readVal_blank, hv]
    simp [skip_line, skip_cons (c := '}') (by decide)]
  | key, x, (key', y) :: ys, f + 1, r, hf => by
    have hx := pretty_length level x
    have hv := readVal_pretty level x f (prettyFields level ((key', y) :: ys) ++ (jsonLine k ++ ('}' :: r)))
      (by simp at hf ⊢; omega) (fields_ends _ _ _ _ _)
    have hy := readFields_pretty level k key' y ys f r (by simp [prettyFields, jsonLine] at hf ⊢; omega)
    have hc : skip (prettyFields level ((key', y) :: ys) ++ (jsonLine k ++ ('}' :: r))) =
        ',' :: (jsonLine level ++ ('"' :: (key'.flatMap escChar ++ ('"' :: ':' :: ' ' :: (y.pretty level ++
          (prettyFields level ys ++ (jsonLine k ++ ('}' :: r)))))))) := by
      have : prettyFields level ((key', y) :: ys) ++ (jsonLine k ++ ('}' :: r)) =
          ',' :: (jsonLine level ++ ('"' :: (key'.flatMap escChar ++ ('"' :: ':' :: ' ' :: (y.pretty level ++
          (prettyFields level ys ++ (jsonLine k ++ ('}' :: r)))))))) := by
        simp [prettyFields, jsonStr]
      rw [this, skip_cons (by decide)]
    rw [readFields]
    simp only [skip_cons (c := '"') (by decide), readStr_esc, skip_cons (c := ':') (by decide)]
    rw [readVal_blank, hv]
    simp only [hc]
    rw [readFields_line, hy]
    rfl
termination_by _ _ _ f => f
end

/-- A JSON value is read back from what is printed. -/
theorem readJson_pretty (j : Json) : readJson (j.pretty 0) = some j := by
  have h := readVal_pretty 0 j ((j.pretty 0).length + 1) [] (by omega) (by intro c h; cases h)
  rw [List.append_nil] at h
  unfold readJson
  rw [h]
  rfl

end Jarl

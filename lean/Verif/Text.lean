/-!
# Text: Rust `str` operations used by jarl

Rust `&str` / `String` values are modelled as `List Char`.  Byte offsets (Rust indexes strings by
UTF-8 byte) are obtained from `Char.utf8Size`; slicing at a byte offset that is not a character
boundary panics in Rust and is `none` here.
-/

namespace Jarl

/-- Rust `&str` / `String`. -/
abbrev Str := List Char

open Lean in
/-- `cs! "abc"` is the list of characters `['a', 'b', 'c']` (purely syntactic). -/
macro "cs! " s:str : term => do
  let chars := s.getString.toList.toArray.map (fun c => Syntax.mkCharLit c)
  `(([$chars,*] : List Char))

/-- Rust `char::is_whitespace` (Unicode White_Space property), used by `str::trim*` and directly
in e.g. suppression.rs:416, suppression_edit.rs:291. -/
def isWs (c : Char) : Bool :=
  let n := c.toNat
  (9 ≤ n && n ≤ 13) || n == 0x20 || n == 0x85 || n == 0xA0 || n == 0x1680 ||
  (0x2000 ≤ n && n ≤ 0x200A) || n == 0x2028 || n == 0x2029 || n == 0x202F || n == 0x205F ||
  n == 0x3000

/-- UTF-8 length in bytes: Rust `str::len`. -/
def blen : Str → Nat
  | [] => 0
  | c :: cs => c.utf8Size + blen cs

/-- Rust `str::trim_start`. -/
def trimStart (s : Str) : Str := s.dropWhile isWs

/-- Rust `str::trim_end`. -/
def trimEnd (s : Str) : Str := (s.reverse.dropWhile isWs).reverse

/-- Rust `str::trim`. -/
def trim (s : Str) : Str := trimEnd (trimStart s)

/-- Rust `str::strip_prefix`. -/
def stripPrefix : Str → Str → Option Str
  | [], s => some s
  | _ :: _, [] => none
  | p :: ps, c :: cs => if p = c then stripPrefix ps cs else none

/-- Rust `str::starts_with`. -/
def startsWith (p s : Str) : Bool := (stripPrefix p s).isSome

/-- `s.find(c)` together with the two slices `s[..pos]` and `s[pos+1..]` (for a one-byte `c`). -/
def splitFirst (c : Char) : Str → Option (Str × Str)
  | [] => none
  | d :: ds =>
    if d = c then some ([], ds)
    else match splitFirst c ds with
      | some (a, b) => some (d :: a, b)
      | none => none

/-- `s.rfind(c)` together with the slices `s[..pos]` and `s[pos+1..]`. -/
def splitLast (c : Char) (s : Str) : Option (Str × Str) :=
  match splitFirst c s.reverse with
  | some (a, b) => some (b.reverse, a.reverse)
  | none => none

/-- Rust `s.split(c)` collected: always at least one piece. -/
def splitOn (c : Char) : Str → List Str
  | [] => [[]]
  | d :: ds =>
    if d = c then [] :: splitOn c ds
    else match splitOn c ds with
      | [] => [[d]]
      | p :: ps => (d :: p) :: ps

/-- Rust `s.split_inclusive('\n')` collected: pieces keep their newline; no empty last piece. -/
def splitInclusive (c : Char) : Str → List Str
  | [] => []
  | d :: ds =>
    if d = c then [d] :: splitInclusive c ds
    else match splitInclusive c ds with
      | [] => [[d]]
      | p :: ps => (d :: p) :: ps

/-- Rust `haystack.contains(needle)`. -/
def containsSub (needle : Str) : Str → Bool
  | [] => needle.isEmpty
  | c :: cs => startsWith needle (c :: cs) || containsSub needle cs

/-- Split at a byte offset: `(&s[..n], &s[n..])`; `none` = Rust panic (not a char boundary or
out of bounds). -/
def splitAtByte : Nat → Str → Option (Str × Str)
  | 0, s => some ([], s)
  | _ + 1, [] => none
  | n + 1, c :: cs =>
    if c.utf8Size ≤ n + 1 then
      match splitAtByte (n + 1 - c.utf8Size) cs with
      | some (a, b) => some (c :: a, b)
      | none => none
    else none

/-- Rust `&s[a..b]`; `none` = panic. -/
def slice (a b : Nat) (s : Str) : Option Str :=
  if b < a then none else
  match splitAtByte a s with
  | none => none
  | some (_, r) =>
    match splitAtByte (b - a) r with
    | none => none
    | some (m, _) => some m

/-- Number of newline characters. -/
def countNl (s : Str) : Nat := s.countP (· == '\n')

/-! ## Basic lemmas -/

@[simp] theorem blen_nil : blen [] = 0 := rfl
@[simp] theorem blen_cons (c cs) : blen (c :: cs) = c.utf8Size + blen cs := rfl
@[simp] theorem blen_append (a b : Str) : blen (a ++ b) = blen a + blen b := by
  induction a with
  | nil => simp
  | cons c cs ih => simp [ih, Nat.add_assoc]

theorem length_le_blen (s : Str) : s.length ≤ blen s := by
  induction s with
  | nil => simp
  | cons c cs ih => simp; have := c.utf8Size_pos; omega

theorem splitAtByte_append (a b : Str) : splitAtByte (blen a) (a ++ b) = some (a, b) := by
  induction a with
  | nil => simp [splitAtByte]
  | cons c cs ih =>
    have hp := c.utf8Size_pos
    have : blen (c :: cs) = (c.utf8Size - 1 + blen cs) + 1 := by simp; omega
    rw [this, List.cons_append, splitAtByte]
    rw [if_pos (by omega)]
    have h2 : c.utf8Size - 1 + blen cs + 1 - c.utf8Size = blen cs := by omega
    rw [h2, ih]

theorem splitAtByte_some {n : Nat} {s a b : Str} (h : splitAtByte n s = some (a, b)) :
    s = a ++ b ∧ blen a = n := by
  induction s generalizing n a b with
  | nil =>
    cases n with
    | zero => simp [splitAtByte] at h; obtain ⟨rfl, rfl⟩ := h; simp
    | succ n => simp [splitAtByte] at h
  | cons c cs ih =>
    cases n with
    | zero => simp [splitAtByte] at h; obtain ⟨rfl, rfl⟩ := h; simp
    | succ n =>
      rw [splitAtByte] at h
      split at h
      · split at h
        · rename_i a' b' h'
          cases h
          obtain ⟨h1, h2⟩ := ih h'
          constructor
          · simp [h1]
          · simp; omega
        · cases h
      · cases h

/-- `splitAtByte` succeeds exactly at character boundaries. -/
theorem splitAtByte_iff {n : Nat} {s a b : Str} :
    splitAtByte n s = some (a, b) ↔ s = a ++ b ∧ blen a = n := by
  constructor
  · exact splitAtByte_some
  · rintro ⟨rfl, rfl⟩; exact splitAtByte_append a b

theorem slice_iff {a b : Nat} {s m : Str} :
    slice a b s = some m ↔ ∃ p q, s = p ++ m ++ q ∧ blen p = a ∧ b = a + blen m := by
  unfold slice
  constructor
  · intro h
    split at h
    · cases h
    · split at h
      · cases h
      · rename_i x r h1
        split at h
        · cases h
        · rename_i m' q h2
          cases h
          obtain ⟨e1, e2⟩ := splitAtByte_some h1
          obtain ⟨e3, e4⟩ := splitAtByte_some h2
          refine ⟨x, q, ?_, e2, ?_⟩
          · rw [e1, e3, List.append_assoc]
          · omega
  · rintro ⟨p, q, rfl, rfl, rfl⟩
    rw [if_neg (by omega)]
    rw [List.append_assoc, splitAtByte_append]
    have : blen p + blen m - blen p = blen m := by omega
    simp only [this, splitAtByte_append]

theorem stripPrefix_iff {p s r : Str} : stripPrefix p s = some r ↔ s = p ++ r := by
  induction p generalizing s with
  | nil => simp [stripPrefix]
  | cons a p ih =>
    cases s with
    | nil => simp [stripPrefix]
    | cons c cs =>
      simp only [stripPrefix, List.cons_append, List.cons.injEq]
      split
      · rename_i h; subst h; simp [ih]
      · rename_i h; simp; intro h'; exact absurd h'.symm h

@[simp] theorem stripPrefix_append (p r : Str) : stripPrefix p (p ++ r) = some r :=
  stripPrefix_iff.mpr rfl

theorem startsWith_iff {p s : Str} : startsWith p s = true ↔ ∃ r, s = p ++ r := by
  unfold startsWith
  rw [Option.isSome_iff_exists]
  constructor
  · rintro ⟨r, h⟩; exact ⟨r, stripPrefix_iff.mp h⟩
  · rintro ⟨r, h⟩; exact ⟨r, stripPrefix_iff.mpr h⟩

theorem containsSub_iff {n s : Str} : containsSub n s = true ↔ ∃ a b, s = a ++ n ++ b := by
  induction s with
  | nil =>
    simp only [containsSub, List.isEmpty_iff]
    constructor
    · rintro rfl; exact ⟨[], [], rfl⟩
    · rintro ⟨a, b, h⟩
      have h' : n.length = 0 := by
        have := congrArg List.length h
        simp at this; omega
      exact List.eq_nil_of_length_eq_zero h'
  | cons c cs ih =>
    simp only [containsSub, Bool.or_eq_true, startsWith_iff, ih]
    constructor
    · rintro (⟨r, h⟩ | ⟨a, b, h⟩)
      · exact ⟨[], r, by simpa using h⟩
      · exact ⟨c :: a, b, by simp [h]⟩
    · rintro ⟨a, b, h⟩
      cases a with
      | nil => left; exact ⟨b, by simpa using h⟩
      | cons x a =>
        right
        simp at h
        exact ⟨a, b, by simp [h.2]⟩

theorem splitFirst_iff {c : Char} {s a b : Str} :
    splitFirst c s = some (a, b) ↔ s = a ++ c :: b ∧ c ∉ a := by
  induction s generalizing a b with
  | nil => simp [splitFirst]
  | cons d ds ih =>
    simp only [splitFirst]
    split
    · rename_i h; subst h
      constructor
      · intro h; cases h; simp
      · rintro ⟨h, hn⟩
        cases a with
        | nil => simp at h; simp [h]
        | cons x a => simp at h hn; exact absurd h.1 (by simp [hn.1])
    · rename_i hd
      split
      · rename_i a' b' h'
        have := ih.mp h'
        constructor
        · intro h; cases h
          refine ⟨by simp [this.1], ?_⟩
          simp [this.2]; exact fun h => hd h.symm
        · rintro ⟨h, hn⟩
          cases a with
          | nil => simp at h; exact absurd h.1 hd
          | cons x a =>
            simp at h hn
            have h3 := ih.mpr ⟨h.2, hn.2⟩
            rw [h'] at h3; cases h3; simp [h.1]
      · rename_i h'
        constructor
        · intro h; cases h
        · rintro ⟨h, hn⟩
          cases a with
          | nil => simp at h; exact absurd h.1 hd
          | cons x a =>
            simp at h hn
            have h3 := ih.mpr ⟨h.2, hn.2⟩
            rw [h'] at h3; cases h3

theorem splitFirst_none {c : Char} {s : Str} : splitFirst c s = none ↔ c ∉ s := by
  induction s with
  | nil => simp [splitFirst]
  | cons d ds ih =>
    simp only [splitFirst]
    split
    · rename_i h; subst h; simp
    · rename_i hd
      split
      · rename_i a b h
        have := (splitFirst_iff.mp h).1
        simp [this]
      · rename_i h
        simp [ih.mp h]; exact fun h => hd h.symm

theorem splitLast_iff {c : Char} {s a b : Str} :
    splitLast c s = some (a, b) ↔ s = a ++ c :: b ∧ c ∉ b := by
  unfold splitLast
  constructor
  · intro h
    split at h
    · rename_i x y h'
      cases h
      have := splitFirst_iff.mp h'
      constructor
      · have h2 := congrArg List.reverse this.1
        simpa using h2
      · simpa using this.2
    · cases h
  · rintro ⟨rfl, hn⟩
    have : splitFirst c (a ++ c :: b).reverse = some (b.reverse, a.reverse) := by
      rw [splitFirst_iff]; simp [hn]
    rw [this]; simp

theorem splitLast_none {c : Char} {s : Str} : splitLast c s = none ↔ c ∉ s := by
  unfold splitLast
  constructor
  · intro h
    split at h
    · cases h
    · rename_i h'; have := splitFirst_none.mp h'; simpa using this
  · intro h
    have : splitFirst c s.reverse = none := splitFirst_none.mpr (by simpa using h)
    rw [this]

theorem splitOn_ne_nil (c s) : splitOn c s ≠ [] := by
  cases s with
  | nil => simp [splitOn]
  | cons d ds => simp only [splitOn]; split; · simp
                 split <;> simp

theorem splitInclusive_flatten (c : Char) (s : Str) : (splitInclusive c s).flatten = s := by
  induction s with
  | nil => rfl
  | cons d ds ih =>
    simp only [splitInclusive]
    split
    · simp [ih]
    · split
      · rename_i h; rw [h] at ih; simp at ih; simp [← ih]
      · rename_i p ps h; rw [h] at ih; simp at ih; simp [ih]

/-! ### trimming -/

theorem isWs_space : isWs ' ' = true := by decide

theorem dropWhile_eq_nil {p : Char → Bool} {s : Str} : s.dropWhile p = [] ↔ ∀ c ∈ s, p c = true := by
  induction s with
  | nil => simp
  | cons c cs ih =>
    simp only [List.dropWhile_cons]
    split
    · rename_i h; simp [ih, h]
    · rename_i h; simp [h]

theorem trimStart_eq_nil {s : Str} : trimStart s = [] ↔ ∀ c ∈ s, isWs c = true := dropWhile_eq_nil

theorem trimEnd_eq_nil {s : Str} : trimEnd s = [] ↔ ∀ c ∈ s, isWs c = true := by
  unfold trimEnd
  rw [List.reverse_eq_nil_iff, dropWhile_eq_nil]; simp

theorem trimStart_spec (s : Str) : ∃ w, s = w ++ trimStart s ∧ (∀ c ∈ w, isWs c = true) := by
  refine ⟨s.takeWhile isWs, (List.takeWhile_append_dropWhile).symm, ?_⟩
  intro c hc
  induction s with
  | nil => simp at hc
  | cons d ds ih =>
    simp only [List.takeWhile_cons] at hc
    split at hc
    · simp at hc; rcases hc with rfl | hc
      · assumption
      · exact ih hc
    · simp at hc

theorem trimEnd_spec (s : Str) : ∃ w, s = trimEnd s ++ w ∧ (∀ c ∈ w, isWs c = true) := by
  obtain ⟨w, h1, h2⟩ := trimStart_spec s.reverse
  refine ⟨w.reverse, ?_, by simpa using h2⟩
  have h3 := congrArg List.reverse h1
  rw [List.reverse_append, List.reverse_reverse] at h3
  exact h3

theorem trim_eq_nil {s : Str} : trim s = [] ↔ ∀ c ∈ s, isWs c = true := by
  unfold trim
  rw [trimEnd_eq_nil]
  obtain ⟨w, h1, h2⟩ := trimStart_spec s
  constructor
  · intro h c hc
    rw [h1] at hc
    rcases List.mem_append.mp hc with h3 | h3
    · exact h2 _ h3
    · exact h _ h3
  · intro h c hc
    exact h c (by rw [h1]; simp [hc])

/-- A string without whitespace at its two ends is its own trim. -/
theorem trimStart_of_head {c : Char} {s : Str} (h : isWs c = false) : trimStart (c :: s) = c :: s := by
  simp [trimStart, h]

theorem trimStart_ws_append {w s : Str} (h : ∀ c ∈ w, isWs c = true) :
    trimStart (w ++ s) = trimStart s := by
  induction w with
  | nil => rfl
  | cons c cs ih =>
    have := h c (by simp)
    simp only [trimStart, List.cons_append, List.dropWhile_cons, this, if_true]
    exact ih (fun d hd => h d (by simp [hd]))

theorem trimEnd_append_ws {w s : Str} (h : ∀ c ∈ w, isWs c = true) :
    trimEnd (s ++ w) = trimEnd s := by
  unfold trimEnd
  rw [List.reverse_append]
  have := trimStart_ws_append (w := w.reverse) (s := s.reverse) (by simpa using h)
  unfold trimStart at this
  rw [this]

theorem trimEnd_of_last {c : Char} {s : Str} (h : isWs c = false) : trimEnd (s ++ [c]) = s ++ [c] := by
  simp [trimEnd, h]

theorem head_trimStart {s : Str} {c : Char} {r : Str} (h : trimStart s = c :: r) : isWs c = false := by
  induction s with
  | nil => simp [trimStart] at h
  | cons d ds ih =>
    simp only [trimStart, List.dropWhile_cons] at h
    split at h
    · exact ih h
    · cases h; simp_all

theorem trimStart_trimStart (s : Str) : trimStart (trimStart s) = trimStart s := by
  cases h : trimStart s with
  | nil => rfl
  | cons c r => exact trimStart_of_head (head_trimStart h)

theorem trim_of_no_ws {s : Str} (h : ∀ c ∈ s, isWs c = false) : trim s = s := by
  have h1 : ∀ t : Str, (∀ c ∈ t, isWs c = false) → t.dropWhile isWs = t := by
    intro t ht
    cases t with
    | nil => rfl
    | cons c cs => simp [ht c (by simp)]
  unfold trim trimStart trimEnd
  rw [h1 s h, h1 s.reverse (by simpa using h), List.reverse_reverse]

theorem trim_trim (s : Str) : trim (trim s) = trim s := by
  have idem : ∀ t : Str, (t.dropWhile isWs).dropWhile isWs = t.dropWhile isWs := by
    intro t
    induction t with
    | nil => rfl
    | cons c cs ih =>
      simp only [List.dropWhile_cons]
      split
      · exact ih
      · rename_i h; simp [h]
  have startEnd : ∀ t : Str, trimStart t = t → trimStart (trimEnd t) = trimEnd t := by
    intro t ht
    obtain ⟨w, hw, _⟩ := trimEnd_spec t
    cases hte : trimEnd t with
    | nil => rfl
    | cons c cs =>
      rw [hte] at hw
      have hc : isWs c = false := by
        cases hws : isWs c with
        | false => rfl
        | true =>
          exfalso
          unfold trimStart at ht
          rw [hw] at ht
          simp only [List.cons_append, List.dropWhile_cons, hws, if_true] at ht
          have := congrArg List.length ht
          have h2 : ∀ u : Str, (u.dropWhile isWs).length ≤ u.length := fun u =>
            (List.dropWhile_suffix isWs).length_le
          have h3 := h2 (cs ++ w)
          simp at this h3
          omega
      simp [trimStart, hc]
  have h1 : trimStart (trim s) = trim s := by
    unfold trim
    exact startEnd _ (idem s)
  have h2 : trimEnd (trimEnd (trimStart s)) = trimEnd (trimStart s) := by
    simp only [trimEnd, List.reverse_reverse, idem]
  show trimEnd (trimStart (trim s)) = trim s
  rw [h1]
  exact h2

/-! ### splitting -/

theorem splitOn_no {c : Char} {s : Str} (h : c ∉ s) : splitOn c s = [s] := by
  induction s with
  | nil => rfl
  | cons d ds ih =>
    simp at h
    simp only [splitOn]
    rw [if_neg (fun e => h.1 e.symm), ih h.2]

theorem splitOn_append {c : Char} {a : Str} (h : c ∉ a) (b : Str) :
    splitOn c (a ++ c :: b) = a :: splitOn c b := by
  induction a with
  | nil => simp [splitOn]
  | cons d ds ih =>
    simp at h
    simp only [List.cons_append, splitOn]
    rw [if_neg (fun e => h.1 e.symm), ih h.2]

/-- `s.split(c)` cuts at the first `c`. -/
theorem splitOn_eq (c : Char) (s : Str) :
    splitOn c s = match splitFirst c s with
      | none => [s]
      | some (a, b) => a :: splitOn c b := by
  cases h : splitFirst c s with
  | none => exact splitOn_no (splitFirst_none.mp h)
  | some p =>
    obtain ⟨a, b⟩ := p
    obtain ⟨rfl, hn⟩ := splitFirst_iff.mp h
    exact splitOn_append hn b

theorem splitOn_eq_cons {c : Char} {s a b : Str} {l : List Str} :
    splitOn c s = a :: b :: l ↔ ∃ r, s = a ++ c :: r ∧ c ∉ a ∧ splitOn c r = b :: l := by
  rw [splitOn_eq]
  constructor
  · intro h
    split at h
    · cases h
    · rename_i x y hx
      simp only [List.cons.injEq] at h
      obtain ⟨rfl, h⟩ := h
      obtain ⟨h1, h2⟩ := splitFirst_iff.mp hx
      exact ⟨y, h1, h2, h⟩
  · rintro ⟨r, h1, h2, h3⟩
    rw [splitFirst_iff.mpr ⟨h1, h2⟩]
    simp [h3]

theorem splitOn_eq_singleton {c : Char} {s a : Str} :
    splitOn c s = [a] ↔ s = a ∧ c ∉ a := by
  rw [splitOn_eq]
  constructor
  · intro h
    split at h
    · rename_i hx; cases h; exact ⟨rfl, splitFirst_none.mp hx⟩
    · rename_i x y hx
      simp at h
      exact absurd h.2 (splitOn_ne_nil _ _)
  · rintro ⟨rfl, h⟩
    rw [splitFirst_none.mpr h]

end Jarl

import Verif.Sprintf
import Verif.Spec.Sprintf
/-!
# C54: the format strings of `sprintf`
-/
namespace Jarl
open Jarl.Spec

/-! ## Reading a conversion -/

/-- The text of a precision. -/
def precText : Option Width → Str
  | some w => '.' :: w.text
  | none => []

/-- What stands behind the `%` of a conversion. -/
def convBody (v : Conv) : Str :=
  (match v.pos with | some ds => ds ++ ['$'] | none => []) ++ (v.flags ++ (v.width.text ++ (precText v.prec ++ [v.type])))

theorem conv_text (v : Conv) : (Piece.conv v).text = '%' :: convBody v := by
  simp only [Piece.text, convBody]
  cases v.pos <;> cases v.prec <;> simp [precText]

theorem type_facts {c : Char} (h : c ∈ ['a', 'A', 'd', 'i', 'f', 'e', 'E', 'g', 'G', 'o', 's', 'x', 'X']) :
    c ∈ typeChars ∧ c.isDigit = false ∧ c ≠ '$' ∧ c ≠ '*' ∧ c ≠ '.' ∧ c ≠ '%' ∧ isFlag c = false ∧ isWs c = false := by
  simp only [List.mem_cons, List.not_mem_nil, or_false] at h
  rcases h with h | h | h | h | h | h | h | h | h | h | h | h | h <;> subst h <;> decide

theorem type_of_mem {c : Char} (h : c ∈ typeChars) : c ∈ ['a', 'A', 'd', 'i', 'f', 'e', 'E', 'g', 'G', 'o', 's', 'x', 'X'] := by
  simp only [typeChars, List.mem_cons, List.not_mem_nil, or_false] at h
  rcases h with h | h | h | h | h | h | h | h | h | h | h | h | h <;> subst h <;> decide

theorem flag_iff {c : Char} : isFlag c = true ↔ c ∈ ['-', '+', ' ', '#', '0'] := by
  simp [isFlag, or_assoc]

theorem fmt_digit_range {c : Char} (h : c.isDigit = true) : 48 ≤ c.toNat ∧ c.toNat ≤ 57 := by
  simp [Char.isDigit] at h
  exact ⟨UInt32.le_iff_toNat_le.mp h.1, UInt32.le_iff_toNat_le.mp h.2⟩

theorem digit_cases {c : Char} (h : c.isDigit = true) : c ∈ ['0', '1', '2', '3', '4', '5', '6', '7', '8', '9'] := by
  have ⟨h1, h2⟩ := fmt_digit_range h
  have : c = Char.ofNat c.toNat := (Char.ofNat_toNat c).symm
  have h3 : c.toNat = 48 ∨ c.toNat = 49 ∨ c.toNat = 50 ∨ c.toNat = 51 ∨ c.toNat = 52 ∨ c.toNat = 53 ∨ c.toNat = 54 ∨ c.toNat = 55 ∨ c.toNat = 56 ∨ c.toNat = 57 := by omega
  rcases h3 with h | h | h | h | h | h | h | h | h | h <;> rw [this, h] <;> decide

theorem digit_facts {c : Char} (h : c.isDigit = true) : c ≠ '$' ∧ c ≠ '*' ∧ c ≠ '.' ∧ c ≠ '%' ∧ isWs c = false ∧ (c ≠ '0' → isFlag c = false) := by
  have := digit_cases h
  simp only [List.mem_cons, List.not_mem_nil, or_false] at this
  rcases this with h | h | h | h | h | h | h | h | h | h <;> subst h <;> decide

theorem skip_all {p : Char → Bool} {a : Str} (ha : ∀ c ∈ a, p c = true) {c : Char} {b : Str} (hc : p c = false) : (a ++ c :: b).dropWhile p = c :: b := by
  induction a with
  | nil => simp [hc]
  | cons d a ih => simp only [List.cons_append, List.dropWhile_cons, ha d (by simp), if_true]; exact ih (fun x hx => ha x (by simp [hx]))

theorem take_all {p : Char → Bool} {a : Str} (ha : ∀ c ∈ a, p c = true) {c : Char} {b : Str} (hc : p c = false) : (a ++ c :: b).takeWhile p = a := by
  induction a with
  | nil => simp [hc]
  | cons d a ih => simp only [List.cons_append, List.takeWhile_cons, ha d (by simp), if_true]; rw [ih (fun x hx => ha x (by simp [hx]))]

theorem readWidth_other {c : Char} (b : Str) (h : c ≠ '*') : readWidth (c :: b) = (0, (c :: b).dropWhile Char.isDigit) := by
  simp only [readWidth]
  split
  · rename_i heq; simp only [List.cons.injEq] at heq; exact absurd heq.1 h
  · rfl

/-- A width or precision in front of something else. -/
theorem readWidth_text {w : Width} (hw : w.PrecOk) {c : Char} {b : Str} (hc : c.isDigit = false) (hs : c ≠ '*') :
    readWidth (w.text ++ c :: b) = (if w = .star then 1 else 0, c :: b) := by
  cases w with
  | none => simp only [Width.text, List.nil_append]; rw [readWidth_other _ hs]; simp [hc]
  | star => simp [Width.text, readWidth]
  | digits ds =>
    obtain ⟨hne, hd⟩ := hw
    cases ds with
    | nil => exact absurd rfl hne
    | cons d ds =>
      simp only [Width.text, List.cons_append]
      rw [readWidth_other _ (digit_facts (hd d (by simp))).2.1, ← List.cons_append, skip_all hd hc]
      simp

theorem readPrecision_other {c : Char} (b : Str) (h : c ≠ '.') : readPrecision (c :: b) = (0, c :: b) := by
  simp only [readPrecision]
  split
  · rename_i heq; simp only [List.cons.injEq] at heq; exact absurd heq.1 h
  · rfl

/-- The precision, and the type. -/
theorem readPrecision_text {p : Option Width} (hp : ∀ w, p = some w → w.PrecOk) {c : Char} {b : Str} (hc : c.isDigit = false) (hs : c ≠ '*') (hd : c ≠ '.') :
    readPrecision (precText p ++ c :: b) = (if p = some .star then 1 else 0, c :: b) := by
  cases p with
  | none => simp only [precText, List.nil_append]; rw [readPrecision_other _ hd]; simp
  | some w => simp only [precText, List.cons_append, readPrecision]; rw [readWidth_text (hp w rfl) hc hs]; simp

theorem precOk_of_ok {w : Width} (h : w.Ok) : w.PrecOk := by
  cases w <;> simp_all [Width.Ok, Width.PrecOk]

/-- What stands behind the flags. -/
def widthBody (v : Conv) : Str := v.width.text ++ (precText v.prec ++ [v.type])

theorem prec_head {v : Conv} (h : v.Ok) (r : Str) : ∃ c b, precText v.prec ++ (v.type :: r) = c :: b ∧ c.isDigit = false ∧ c ≠ '*' ∧ isFlag c = false ∧ isWs c = false ∧ c ≠ '$' ∧ c ≠ '%' := by
  have ⟨_, h1, h2, h3, _, h4, h5, h6⟩ := type_facts h.2.2.2.2
  cases v.prec with
  | none => exact ⟨_, _, rfl, h1, h3, h5, h6, h2, h4⟩
  | some w => exact ⟨_, _, rfl, by decide, by decide, by decide, by decide, by decide, by decide⟩

theorem width_head {v : Conv} (h : v.Ok) (r : Str) : ∃ c b, widthBody v ++ r = c :: b ∧ isFlag c = false ∧ isWs c = false ∧ c ≠ '%' := by
  have hp := prec_head h r
  simp only [widthBody, List.append_assoc, List.singleton_append]
  cases hw : v.width with
  | none => obtain ⟨c, b, e, _, _, h1, h2, _, h3⟩ := hp; exact ⟨c, b, e, h1, h2, h3⟩
  | star => exact ⟨'*', _, rfl, by decide, by decide, by decide⟩
  | digits ds =>
    have ho := h.2.2.1
    rw [hw] at ho
    obtain ⟨⟨hne, hd⟩, h0⟩ := ho
    cases ds with
    | nil => exact absurd rfl hne
    | cons d ds =>
      have ⟨_, _, _, h4, h5, h6⟩ := digit_facts (hd d (by simp))
      exact ⟨d, _, rfl, h6 (by simpa using h0), h5, h4⟩

/-- Reading the width, precision and type. -/
theorem read_width {v : Conv} (h : v.Ok) (r : Str) :
    readWidth (widthBody v ++ r) = (if v.width = .star then 1 else 0, precText v.prec ++ (v.type :: r)) := by
  obtain ⟨c, b, e, h1, h2, _⟩ := prec_head h r
  simp only [widthBody, List.append_assoc, List.singleton_append]
  rw [e]
  exact readWidth_text (precOk_of_ok h.2.2.1) h1 h2

theorem no_position {z : Str} (hz : '$' ∉ z) {c : Char} {b : Str} (hc : c.isDigit = false) (hd : c ≠ '$') : readPosition (z ++ c :: b) = (none, z ++ c :: b) := by
  have : ∃ d b', (z ++ c :: b).dropWhile Char.isDigit = d :: b' ∧ d ≠ '$' := by
    induction z with
    | nil => exact ⟨c, b, by simp [hc], hd⟩
    | cons d z ih =>
      simp only [List.cons_append, List.dropWhile_cons]
      split
      · exact ih (fun h => hz (by simp [h]))
      · exact ⟨d, _, rfl, fun h => hz (by simp [h])⟩
  obtain ⟨d, b', e, hne⟩ := this
  unfold readPosition
  rw [e]
  split
  · rename_i heq; simp only [List.cons.injEq] at heq; exact absurd heq.1 hne
  · rfl

theorem read_position {ds : Str} (hd : Digits ds) (hv : value ds < 2 ^ 64) (b : Str) : readPosition (ds ++ '$' :: b) = (some (value ds), b) := by
  unfold readPosition
  rw [skip_all hd.2 (by decide), take_all hd.2 (by decide)]
  have : parseUsize ds = some (value ds) := by
    unfold parseUsize
    rw [if_neg]
    · rfl
    · intro h
      rcases h with h | h
      · exact hd.1 h
      · exact absurd hv (Nat.not_lt.mpr h)
  simp only [this]

/-- What is read after the position. -/
def readRest (p : Option Nat) (t : Str) : FmtItem × Str :=
  let (w, t) := readWidth (t.dropWhile isFlag)
  let (q, t) := readPrecision t
  match t with
  | c :: r => if c ∈ typeChars then (.conv p (1 + w + q), r) else (.bad, c :: r)
  | [] => (.bad, [])

theorem readItem_eq {s : Str} {c : Char} {t : Str} (h : s.dropWhile isWs = c :: t) (hc : c ≠ '%') : readItem s = readRest (readPosition (c :: t)).1 (readPosition (c :: t)).2 := by
  unfold readItem
  rw [h]
  simp only
  split
  · rename_i heq; simp at heq
  · rename_i heq; simp only [List.cons.injEq] at heq; exact absurd heq.1 hc
  · rfl

theorem readRest_conv {v : Conv} (h : v.Ok) (p : Option Nat) {fl : Str} (hf : ∀ c ∈ fl, isFlag c = true) (r : Str) :
    readRest p (fl ++ (widthBody v ++ r)) = (.conv p (1 + v.stars), r) := by
  have ⟨ht, h1, _, h3, h4, _, _, _⟩ := type_facts h.2.2.2.2
  obtain ⟨c, b, e, hc, _⟩ := width_head h r
  have e1 : (fl ++ (widthBody v ++ r)).dropWhile isFlag = widthBody v ++ r := by rw [e]; exact skip_all hf hc
  simp only [readRest, e1, read_width h r, readPrecision_text h.2.2.2.1 h1 h3 h4, ht, if_true, Conv.stars, Nat.add_assoc]

theorem body_split (v : Conv) (r : Str) : convBody v ++ r = (match v.pos with | some ds => ds ++ ['$'] | none => []) ++ (v.flags ++ (widthBody v ++ r)) := by
  simp [convBody, widthBody]

theorem dropWhile_flags {fl : Str} (hf : ∀ c ∈ fl, isFlag c = true) {c : Char} {b : Str} (hc : isWs c = false) :
    ∃ fl', (∀ c ∈ fl', isFlag c = true) ∧ (fl ++ c :: b).dropWhile isWs = fl' ++ c :: b ∧ (∀ d t, fl' ++ c :: b = d :: t → d = c ∨ isFlag d = true) := by
  induction fl with
  | nil => exact ⟨[], by simp, by simp [hc], fun d t e => by simp at e; exact .inl e.1.symm⟩
  | cons d fl ih =>
    simp only [List.cons_append, List.dropWhile_cons]
    split
    · exact ih (fun x hx => hf x (by simp [hx]))
    · refine ⟨d :: fl, hf, rfl, fun e t h => ?_⟩
      simp only [List.cons_append, List.cons.injEq] at h
      exact .inr (h.1 ▸ hf d (by simp))

theorem dropWhile_skip {p : Char → Bool} {ws t : Str} (h : ∀ c ∈ ws, p c = true) : (ws ++ t).dropWhile p = t.dropWhile p := by
  induction ws with
  | nil => rfl
  | cons d ws ih => simp only [List.cons_append, List.dropWhile_cons, h d (by simp), if_true]; exact ih (fun c hc => h c (by simp [hc]))

/-- A conversion is read as such. -/
theorem readItem_conv {v : Conv} (h : v.Ok) (ws : Str) (hws : ∀ c ∈ ws, isWs c = true) (r : Str) :
    readItem (ws ++ (convBody v ++ r)) = (.conv (v.pos.map value) (1 + v.stars), r) := by
  have hf : ∀ c ∈ v.flags, isFlag c = true := fun c hc => flag_iff.mpr (h.2.1 c hc)
  rw [body_split]
  cases hp : v.pos with
  | some ds =>
    have ⟨hd, hv⟩ := h.1 ds hp
    simp only [List.append_assoc, List.singleton_append, Option.map_some]
    cases ds with
    | nil => exact absurd rfl hd.1
    | cons d ds =>
      have ⟨_, _, _, h4, h5, _⟩ := digit_facts (hd.2 d (by simp))
      rw [readItem_eq (c := d) (t := ds ++ '$' :: (v.flags ++ (widthBody v ++ r))) (by rw [dropWhile_skip hws]; simp [h5]) h4]
      rw [← List.cons_append, read_position hd hv]
      exact readRest_conv h _ hf r
  | none =>
    simp only [List.nil_append, Option.map_none]
    obtain ⟨c, b, e, hc, hcw, hcp⟩ := width_head h r
    obtain ⟨fl, hfl, e1, e2⟩ := dropWhile_flags hf (b := b) hcw
    have e3 : (ws ++ (v.flags ++ (widthBody v ++ r))).dropWhile isWs = fl ++ (widthBody v ++ r) := by
      rw [dropWhile_skip hws, e, e1]
    have hpos : readPosition (fl ++ (widthBody v ++ r)) = (none, fl ++ (widthBody v ++ r)) := by
      have ⟨_, h1, h2, _⟩ := type_facts h.2.2.2.2
      have : fl ++ (widthBody v ++ r) = (fl ++ (v.width.text ++ precText v.prec)) ++ v.type :: r := by simp [widthBody]
      rw [this]
      refine no_position ?_ h1 h2
      intro hm
      have hdig : ∀ w : Width, w.PrecOk → '$' ∉ w.text := by
        intro w hw hm
        cases w with
        | none => simp [Width.text] at hm
        | star => simp [Width.text] at hm
        | digits ds => exact (digit_facts (hw.2 _ hm)).1 rfl
      rw [List.mem_append, List.mem_append] at hm
      rcases hm with hm | hm | hm
      · exact absurd (hfl _ hm) (by decide)
      · exact hdig _ (precOk_of_ok h.2.2.1) hm
      · cases hq : v.prec with
        | none => rw [hq] at hm; simp [precText] at hm
        | some w => rw [hq] at hm; simp [precText] at hm; exact hdig w (h.2.2.2.1 w hq) hm
    cases hx : fl ++ (widthBody v ++ r) with
    | nil => rw [e] at hx; simp at hx
    | cons d t =>
      have hd : d ≠ '%' := by
        rcases e2 d t (by rw [← hx, e]) with rfl | h
        · exact hcp
        · intro hd; subst hd; exact absurd h (by decide)
      rw [readItem_eq (e3.trans hx) hd, ← hx, hpos]
      exact readRest_conv h _ hfl r

/-! ## What is read is a conversion -/

theorem split_dropWhile (p : Char → Bool) (s : Str) : s = s.takeWhile p ++ s.dropWhile p := (List.takeWhile_append_dropWhile).symm

theorem takeWhile_mem {p : Char → Bool} {s : Str} {c : Char} (h : c ∈ s.takeWhile p) : p c = true := by
  induction s with
  | nil => simp at h
  | cons d s ih =>
    simp only [List.takeWhile_cons] at h
    split at h
    · simp only [List.mem_cons] at h
      rcases h with rfl | h
      · assumption
      · exact ih h
    · simp at h

theorem dropWhile_head {p : Char → Bool} {s : Str} {c : Char} {t : Str} (h : s.dropWhile p = c :: t) : p c = false := by
  induction s with
  | nil => simp at h
  | cons d s ih =>
    simp only [List.dropWhile_cons] at h
    split at h
    · exact ih h
    · simp only [List.cons.injEq] at h
      rw [← h.1]; simp_all

theorem width_of (t : Str) : ∃ w : Width, w.PrecOk ∧ t = w.text ++ (readWidth t).2 ∧ ∀ ds, w = .digits ds → ds.head? = t.head? := by
  by_cases hs : t.head? = some '*'
  · cases t with
    | nil => simp at hs
    | cons a t => simp only [List.head?_cons, Option.some.injEq] at hs; subst hs; exact ⟨.star, trivial, rfl, by simp⟩
  · have e : (readWidth t).2 = t.dropWhile Char.isDigit := by
      cases t with
      | nil => rfl
      | cons a t => rw [readWidth_other _ (by simpa using hs)]
    rw [e]
    by_cases h : t.takeWhile Char.isDigit = []
    · refine ⟨.none, trivial, ?_, by simp⟩
      have := split_dropWhile Char.isDigit t
      rw [h] at this
      exact this
    · refine ⟨.digits _, ⟨h, fun c hc => takeWhile_mem hc⟩, split_dropWhile _ t, ?_⟩
      intro ds hd
      simp only [Width.digits.injEq] at hd
      subst hd
      cases t with
      | nil => rfl
      | cons a t =>
        simp only [List.takeWhile_cons] at h ⊢
        split <;> simp_all

theorem prec_of (t : Str) : ∃ q : Option Width, (∀ w, q = some w → w.PrecOk) ∧ t = precText q ++ (readPrecision t).2 := by
  unfold readPrecision
  split
  · rename_i r
    obtain ⟨w, hw, e, _⟩ := width_of r
    exact ⟨some w, fun w' h => by cases h; exact hw, by simp only [precText, List.cons_append]; rw [← e]⟩
  · exact ⟨none, by simp, rfl⟩

theorem position_of (t : Str) :
    (∃ ds, Digits ds ∧ value ds < 2 ^ 64 ∧ t = ds ++ '$' :: (readPosition t).2) ∨ (readPosition t).2 = t ∨ ∃ r, (readPosition t).2 = '$' :: r := by
  unfold readPosition
  split
  · rename_i r hr
    unfold parseUsize
    by_cases h : t.takeWhile Char.isDigit = [] ∨ 2 ^ 64 ≤ value (t.takeWhile Char.isDigit)
    · refine .inr (.inr ⟨r, ?_⟩)
      simp only [value] at h
      simp only [h, if_true]
    · refine .inl ⟨t.takeWhile Char.isDigit, ⟨fun e => h (.inl e), fun c hc => takeWhile_mem hc⟩, Nat.lt_of_not_le (fun e => h (.inr e)), ?_⟩
      simp only [value] at h
      simp only [h, if_false]
      rw [← hr]
      exact split_dropWhile _ _
  · exact .inr (.inl rfl)

theorem readRest_of {p : Option Nat} {t r : Str} {i : FmtItem} (h : readRest p t = (i, r)) (hb : i ≠ .bad) :
    ∃ v : Conv, v.pos = none ∧ v.Ok ∧ t = convBody v ++ r := by
  unfold readRest at h
  simp only at h
  obtain ⟨w, hw, ew, hh⟩ := width_of (t.dropWhile isFlag)
  obtain ⟨q, hq, eq⟩ := prec_of (readWidth (t.dropWhile isFlag)).2
  cases hc : (readPrecision (readWidth (t.dropWhile isFlag)).2).2 with
  | nil => rw [hc] at h; simp only [Prod.mk.injEq] at h; exact absurd h.1.symm hb
  | cons c r' =>
    rw [hc] at h
    by_cases ht : c ∈ typeChars
    · simp only [ht, if_true, Prod.mk.injEq] at h
      refine ⟨⟨none, t.takeWhile isFlag, w, q, c⟩, rfl, ⟨by simp, fun c hc => flag_iff.mp (takeWhile_mem hc), ?_, hq, type_of_mem ht⟩, ?_⟩
      · cases w with
        | digits ds =>
          refine ⟨hw, fun h0 => ?_⟩
          have := hh ds rfl
          rw [h0] at this
          cases hx : t.dropWhile isFlag with
          | nil => rw [hx] at this; simp at this
          | cons a b =>
            rw [hx] at this
            simp only [List.head?_cons, Option.some.injEq] at this
            subst this
            exact absurd (dropWhile_head hx) (by decide)
        | none => trivial
        | star => trivial
      · have := split_dropWhile isFlag t
        rw [ew, eq, hc, h.2] at this
        simpa [convBody] using this
    · simp only [ht, if_false, Prod.mk.injEq] at h
      exact absurd h.1.symm hb

theorem readItem_of {s r : Str} {i : FmtItem} (h : readItem s = (i, r)) (hb : i ≠ .bad) :
    ∃ ws t p, s = ws ++ (t ++ r) ∧ (∀ c ∈ ws, isWs c = true) ∧ Piece.text p = '%' :: t ∧ (match p with | .char _ => False | .percent => True | .conv v => v.Ok) := by
  have hs := split_dropWhile isWs s
  cases hx : s.dropWhile isWs with
  | nil => unfold readItem at h; rw [hx] at h; simp only [Prod.mk.injEq] at h; exact absurd h.1.symm hb
  | cons c t =>
    by_cases hc : c = '%'
    · subst hc
      unfold readItem at h
      rw [hx] at h
      simp only [Prod.mk.injEq] at h
      rw [hx, h.2] at hs
      exact ⟨s.takeWhile isWs, ['%'], .percent, hs, fun c hc => takeWhile_mem hc, rfl, trivial⟩
    · rw [readItem_eq hx hc] at h
      obtain ⟨v, hp, hv, e⟩ := readRest_of h hb
      rcases position_of (c :: t) with ⟨ds, hd, hl, e2⟩ | e2 | ⟨r', e2⟩
      · refine ⟨s.takeWhile isWs, convBody { v with pos := some ds }, .conv { v with pos := some ds }, ?_, fun c hc => takeWhile_mem hc, conv_text _, ⟨?_, hv.2⟩⟩
        · rw [hx, e2, e] at hs
          simpa [convBody, hp] using hs
        · intro ds' he
          cases he
          exact ⟨hd, hl⟩
      · rw [e2] at e
        rw [hx, e] at hs
        exact ⟨s.takeWhile isWs, _, .conv v, hs, fun c hc => takeWhile_mem hc, conv_text _, hv⟩
      · rw [e2] at h
        simp [readRest, isFlag, readWidth, readPrecision, typeChars] at h
        exact absurd h.1.symm hb

/-! ## The loop -/

/-- What a piece adds to the result. -/
def pieceAdd (m : Fmt) : Piece → Fmt
  | .char c => { m with out := m.out ++ [c] }
  | .percent => m.add .percent
  | .conv v => m.add (.conv (v.pos.map value) (1 + v.stars))

theorem readFormat_char {n : Nat} {c : Char} (hc : c ≠ '%') (s : Str) (m : Fmt) : readFormat (n + 1) (c :: s) m = readFormat n s { m with out := m.out ++ [c] } := by
  rw [readFormat]
  intro h
  exact hc h

theorem readFormat_spaced {ps : List Piece} {s : Str} (h : Spaced ps s) (ho : Spec.Ok ps) : ∀ (n : Nat) (m : Fmt), s.length ≤ n → readFormat n s m = ps.foldl pieceAdd m := by
  induction h with
  | nil => intro n m _; cases n <;> simp [readFormat]
  | @char c ps s h ih =>
    intro n m hn
    cases n with
    | zero => simp at hn
    | succ n =>
      rw [readFormat_char (ho (.char c) (by simp))]
      exact ih (fun p hp => ho p (by simp [hp])) n _ (by simpa using hn)
  | @item p t ps s ws ht hws h ih =>
    intro n m hn
    cases n with
    | zero => simp at hn
    | succ n =>
      have hop := ho p (by simp)
      have hr : ∃ i, readItem (ws ++ (t ++ s)) = (i, s) ∧ m.add i = pieceAdd m p := by
        cases p with
        | char c => simp only [Piece.text, List.cons.injEq] at ht; exact absurd ht.1 hop
        | percent =>
          simp only [Piece.text, List.cons.injEq, true_and] at ht
          subst ht
          refine ⟨.percent, ?_, rfl⟩
          unfold readItem
          rw [dropWhile_skip hws]
          simp [List.dropWhile_cons, show isWs '%' = false by decide]
        | conv v =>
          rw [conv_text] at ht
          simp only [List.cons.injEq, true_and] at ht
          subst ht
          exact ⟨_, readItem_conv hop ws hws s, rfl⟩
      obtain ⟨i, hi, hm⟩ := hr
      rw [readFormat, hi]
      simp only [hm, List.foldl_cons]
      refine ih (fun p hp => ho p (by simp [hp])) n _ ?_
      simp only [List.length_cons, List.length_append] at hn
      omega

theorem readFormat_invalid (n : Nat) : ∀ (s : Str) (m : Fmt), m.invalid ≤ (readFormat n s m).invalid := by
  induction n with
  | zero => intro s m; simp [readFormat]
  | succ n ih =>
    intro s m
    cases s with
    | nil => simp [readFormat]
    | cons c s =>
      by_cases hc : c = '%'
      · subst hc
        rw [readFormat]
        generalize readItem s = ir
        obtain ⟨i, r⟩ := ir
        refine Nat.le_trans ?_ (ih r (m.add i))
        cases i <;> simp [Fmt.add]
      · rw [readFormat_char hc]
        exact ih s { m with out := m.out ++ [c] }

theorem readFormat_of (n : Nat) : ∀ (s : Str) (m : Fmt), s.length ≤ n → (readFormat n s m).invalid = 0 → ∃ ps, Spec.Ok ps ∧ Spaced ps s := by
  induction n with
  | zero =>
    intro s m hs _
    have : s = [] := List.length_eq_zero_iff.mp (by omega)
    subst this
    exact ⟨[], by simp [Spec.Ok], .nil⟩
  | succ n ih =>
    intro s m hs hi
    cases s with
    | nil => exact ⟨[], by simp [Spec.Ok], .nil⟩
    | cons c s =>
      by_cases hc : c = '%'
      · subst hc
        rw [readFormat] at hi
        cases hr : readItem s with
        | mk i r =>
          rw [hr] at hi
          simp only at hi
          have hb : i ≠ .bad := by
            rintro rfl
            have := readFormat_invalid n r (m.add .bad)
            simp only [Fmt.add] at this hi
            omega
          obtain ⟨ws, t, p, e, hws, ht, hp⟩ := readItem_of hr hb
          subst e
          obtain ⟨ps, ho, hsp⟩ := ih r _ (by simp only [List.length_cons, List.length_append] at hs; omega) hi
          refine ⟨p :: ps, ?_, .item ws ht hws hsp⟩
          intro q hq
          simp only [List.mem_cons] at hq
          rcases hq with rfl | hq
          · cases q with
            | char c => exact absurd hp (by simp)
            | percent => trivial
            | conv v => exact hp
          · exact ho q hq
      · rw [readFormat_char hc] at hi
        obtain ⟨ps, ho, hsp⟩ := ih s _ (by simpa using hs) hi
        refine ⟨.char c :: ps, ?_, .char hsp⟩
        intro q hq
        simp only [List.mem_cons] at hq
        rcases hq with rfl | hq
        · exact hc
        · exact ho q hq

/-- The highest position. -/
def highest (ps : List Piece) : Nat := (convs ps).foldl (fun k v => max k ((v.pos.map value).getD 0)) 0

theorem fold_add (ps : List Piece) : ∀ m : Fmt, ps.foldl pieceAdd m =
    { convs := m.convs + (convs ps).length, args := m.args ++ (convs ps).map (fun v => 1 + v.stars), invalid := m.invalid,
      positional := m.positional || (convs ps).any (fun v => v.pos.isSome), maxPos := (convs ps).foldl (fun k v => max k ((v.pos.map value).getD 0)) m.maxPos,
      out := m.out ++ plainText ps } := by
  induction ps with
  | nil => intro m; simp [convs, plainText]
  | cons p ps ih =>
    intro m
    rw [List.foldl_cons, ih]
    cases p with
    | char c => simp [pieceAdd, convs, plainText]
    | percent => simp [pieceAdd, Fmt.add, convs, plainText]
    | conv v => simp [pieceAdd, Fmt.add, convs, plainText, Nat.add_assoc, Nat.add_comm 1, Bool.or_assoc]

/-- What is read of a format. -/
theorem parse_spaced {ps : List Piece} {s : Str} (h : Spaced ps s) (ho : Spec.Ok ps) :
    parseFormat s = { convs := (convs ps).length, args := (convs ps).map (fun v => 1 + v.stars), invalid := 0,
                      positional := (convs ps).any (fun v => v.pos.isSome), maxPos := highest ps, out := plainText ps } := by
  unfold parseFormat
  rw [readFormat_spaced h ho _ _ (Nat.le_refl _), fold_add]
  simp [highest]

theorem spaced_render {ps : List Piece} (ho : Spec.Ok ps) : Spaced ps (render ps) := by
  induction ps with
  | nil => exact .nil
  | cons p ps ih =>
    have := ih (fun q hq => ho q (by simp [hq]))
    cases p with
    | char c => exact .char this
    | percent => exact .item (t := ['%']) [] rfl (by simp) this
    | conv v =>
      have := Spaced.item (p := .conv v) [] (conv_text v) (by simp) this
      have e : render (Piece.conv v :: ps) = '%' :: ([] ++ (convBody v ++ render ps)) := by
        simp only [render, List.map_cons, List.flatten_cons, conv_text, List.cons_append, List.nil_append]
      rw [e]
      exact this

theorem noBlank_char {c : Char} (hc : c ≠ '%') {s : Str} (h : NoBlank (c :: s)) : NoBlank s := by
  rw [NoBlank] at h
  · exact h
  · intro _ e; exact absurd e hc
  · intro _ _ e; exact absurd e hc

theorem noBlank_skip {t s : Str} (ht : '%' ∉ t) (h : NoBlank (t ++ s)) : NoBlank s := by
  induction t with
  | nil => exact h
  | cons c t ih => exact ih (fun h => ht (by simp [h])) (noBlank_char (fun e => ht (by simp [e])) h)

theorem noBlank_item {c : Char} (hc : c ≠ '%') {s : Str} (h : NoBlank ('%' :: c :: s)) : isWs c = false ∧ NoBlank (c :: s) := by
  rw [NoBlank] at h
  · exact h
  · intro e; exact absurd e hc

theorem width_no_percent {w : Width} (hw : w.PrecOk) : '%' ∉ w.text := by
  intro hm
  cases w with
  | none => simp [Width.text] at hm
  | star => simp [Width.text] at hm
  | digits ds => exact (digit_facts (hw.2 _ hm)).2.2.2.1 rfl

theorem body_no_percent {v : Conv} (h : v.Ok) : '%' ∉ convBody v := by
  intro hm
  simp only [convBody, List.mem_append, List.mem_singleton] at hm
  rcases hm with hm | hm | hm | hm | hm
  · cases hp : v.pos with
    | none => rw [hp] at hm; simp at hm
    | some ds => rw [hp] at hm; simp at hm; exact (digit_facts ((h.1 ds hp).1.2 _ hm)).2.2.2.1 rfl
  · exact absurd (h.2.1 _ hm) (by decide)
  · exact width_no_percent (precOk_of_ok h.2.2.1) hm
  · cases hq : v.prec with
    | none => rw [hq] at hm; simp [precText] at hm
    | some w => rw [hq] at hm; simp [precText] at hm; exact width_no_percent (h.2.2.2.1 w hq) hm
  · exact (type_facts h.2.2.2.2).2.2.2.2.2.1 hm.symm

theorem render_of_spaced {ps : List Piece} {s : Str} (h : Spaced ps s) (ho : Spec.Ok ps) (hn : NoBlank s) : render ps = s := by
  induction h with
  | nil => rfl
  | @char c ps s h ih =>
    have := ih (fun q hq => ho q (by simp [hq])) (noBlank_char (ho (.char c) (by simp)) hn)
    simp only [render, List.map_cons, List.flatten_cons, Piece.text] at this ⊢
    rw [this]
    rfl
  | @item p t ps s ws ht hws h ih =>
    have hw : ws = [] := by
      cases ws with
      | nil => rfl
      | cons w ws =>
        have h1 := hws w (by simp)
        have := (noBlank_item (c := w) (by rintro rfl; exact absurd h1 (by decide)) hn).1
        rw [h1] at this
        simp at this
    subst hw
    have hns : NoBlank s := by
      have hop := ho p (by simp)
      cases p with
      | char c => simp only [Piece.text, List.cons.injEq] at ht; exact absurd ht.1 hop
      | percent =>
        simp only [Piece.text, List.cons.injEq, true_and] at ht
        subst ht
        exact hn
      | conv v =>
        rw [conv_text] at ht
        simp only [List.cons.injEq, true_and] at ht
        subst ht
        have hb := body_no_percent hop
        cases hx : convBody v with
        | nil => exact absurd hx (by simp [convBody])
        | cons c b =>
          rw [hx] at hn hb
          have := (noBlank_item (c := c) (fun e => hb (by simp [e])) hn).2
          exact noBlank_skip (t := c :: b) hb this
    have := ih (fun q hq => ho q (by simp [hq])) hns
    simp only [render, List.map_cons, List.flatten_cons] at this ⊢
    rw [this, ht]
    rfl

/-! ## Which arguments are used -/

theorem uses_unnumbered (ps : List Piece) (h : Unnumbered ps) : ∀ k, uses k ps = List.range' (k + 1) ((convs ps).map (fun v => 1 + v.stars)).sum := by
  induction ps with
  | nil => intro k; simp [uses, convs]
  | cons p ps ih =>
    intro k
    cases p with
    | char c => simpa [uses, convs] using ih (fun v hv => h v (by simpa [convs] using hv)) k
    | percent => simpa [uses, convs] using ih (fun v hv => h v (by simpa [convs] using hv)) k
    | conv v =>
      have hp : v.pos = none := h v (by simp [convs])
      have ih := ih (fun v hv => h v (by simp only [convs] at hv ⊢; rw [List.filterMap_cons]; simp [hv])) (k + v.stars + 1)
      simp only [uses, hp, ih]
      have e : convs (Piece.conv v :: ps) = v :: convs ps := by simp [convs]
      rw [e, List.map_cons, List.sum_cons, show (1 + v.stars) + ((convs ps).map (fun v => 1 + v.stars)).sum = v.stars + (((convs ps).map (fun v => 1 + v.stars)).sum + 1) by omega]
      rw [← List.range'_append_1, List.range'_succ]
      simp [Nat.add_comm, Nat.add_left_comm, Nat.add_assoc]

theorem uses_numbered (ps : List Piece) (h : Numbered ps) : ∀ k, uses k ps = (convs ps).map (fun v => (v.pos.map value).getD 0) := by
  induction ps with
  | nil => intro k; simp [uses, convs]
  | cons p ps ih =>
    intro k
    cases p with
    | char c => simpa [uses, convs] using ih (fun v hv => h v (by simpa [convs] using hv)) k
    | percent => simpa [uses, convs] using ih (fun v hv => h v (by simpa [convs] using hv)) k
    | conv v =>
      have ⟨hp, hs⟩ := h v (by simp [convs])
      have e : convs (Piece.conv v :: ps) = v :: convs ps := by simp [convs]
      have ih := ih (fun v hv => h v (by rw [e]; simp [hv])) (k + 0)
      cases hq : v.pos with
      | none => exact absurd hq hp
      | some ds => simp only [uses, hq, ih, hs, e, List.range'_zero, List.nil_append, List.map_cons, Option.map_some, Option.getD_some]

theorem foldl_max (l : List Conv) (f : Conv → Nat) : ∀ k, (∀ v ∈ l, f v ≤ l.foldl (fun k v => max k (f v)) k) ∧ k ≤ l.foldl (fun k v => max k (f v)) k ∧
    (l.foldl (fun k v => max k (f v)) k = k ∨ ∃ v ∈ l, l.foldl (fun k v => max k (f v)) k = f v) := by
  induction l with
  | nil => intro k; simp
  | cons a l ih =>
    intro k
    obtain ⟨h1, h2, h3⟩ := ih (max k (f a))
    simp only [List.foldl_cons]
    refine ⟨?_, by omega, ?_⟩
    · intro v hv
      simp only [List.mem_cons] at hv
      rcases hv with rfl | hv
      · omega
      · exact h1 v hv
    · rcases h3 with h3 | ⟨v, hv, h3⟩
      · rcases Nat.le_total k (f a) with h | h
        · exact .inr ⟨a, by simp, by omega⟩
        · exact .inl (by omega)
      · exact .inr ⟨v, by simp [hv], h3⟩

/-- A format can fit only one number of arguments. -/
theorem fits_unique {ps : List Piece} {n m : Nat} (h1 : Fits ps n) (h2 : Fits ps m) : n = m := by
  have a : 1 ≤ n → n ≤ m := fun h => ((h2 n).mp ((h1 n).mpr ⟨h, Nat.le_refl _⟩)).2
  have b : 1 ≤ m → m ≤ n := fun h => ((h1 m).mp ((h2 m).mpr ⟨h, Nat.le_refl _⟩)).2
  omega

/-- The number of arguments that are expected. -/
def wanted (ps : List Piece) : Nat := if (convs ps).any (fun v => v.pos.isSome) then highest ps else ((convs ps).map (fun v => 1 + v.stars)).sum

theorem fits_unnumbered {ps : List Piece} (hu : Unnumbered ps) : Fits ps (wanted ps) := by
  have : (convs ps).any (fun v => v.pos.isSome) = false := by
    rw [List.any_eq_false]
    intro v hv
    simp [hu v hv]
  intro i
  rw [uses_unnumbered ps hu 0, wanted, this, List.mem_range'_1]
  simp only [Bool.false_eq_true, if_false]
  omega

theorem fits_numbered {ps : List Piece} (hu : Numbered ps) (hc : convs ps ≠ []) {n : Nat} (h : Fits ps n) : wanted ps = n := by
  have e : (convs ps).any (fun v => v.pos.isSome) = true := by
    cases hx : convs ps with
    | nil => exact absurd hx hc
    | cons v l =>
      have := (hu v (by rw [hx]; simp)).1
      cases hv : v.pos with
      | none => exact absurd hv this
      | some d => simp [hv]
  rw [wanted, e]
  simp only [if_true]
  have ⟨h1, _, h3⟩ := foldl_max (convs ps) (fun v => (v.pos.map value).getD 0) 0
  have hmem : ∀ i, i ∈ (convs ps).map (fun v => (v.pos.map value).getD 0) ↔ 1 ≤ i ∧ i ≤ n := by
    intro i
    rw [← uses_numbered ps hu 0]
    exact h i
  unfold highest
  rcases h3 with h3 | ⟨v, hv, h3⟩
  · rw [h3]
    cases hx : convs ps with
    | nil => exact absurd hx hc
    | cons v l =>
      have hv : v ∈ convs ps := by rw [hx]; simp
      have a := h1 v hv
      rw [h3] at a
      have b := (hmem _).mp (List.mem_map.mpr ⟨v, hv, rfl⟩)
      omega
  · have b := (hmem _).mp (List.mem_map.mpr ⟨v, hv, rfl⟩)
    rw [← h3] at b
    by_cases hn : 1 ≤ n
    · have ⟨u, hu, hun⟩ := List.mem_map.mp ((hmem n).mpr ⟨hn, Nat.le_refl _⟩)
      have := h1 u hu
      omega
    · omega

theorem check_spaced {ps : List Piece} {s : Str} (h : Spaced ps s) (ho : Spec.Ok ps) (n : Nat) :
    checkFormat s n = if convs ps = [] then some (.useless (plainText ps)) else if wanted ps ≠ n then some (.mismatch (wanted ps) n) else none := by
  unfold checkFormat
  rw [parse_spaced h ho]
  simp only [Fmt.expected, wanted, ne_eq, not_true_eq_false, if_false, List.length_eq_zero_iff]
  rfl

/-! ## C54 -/

/-- **C54 (invalid formats).** A format is reported as invalid exactly when it is not a format of R's manual, blanks behind a `%` left aside. -/
theorem C54_invalid_iff (s : Str) (n : Nat) : checkFormat s n = some .invalid ↔ ¬ ∃ ps, Spec.Ok ps ∧ Spaced ps s := by
  constructor
  · rintro h ⟨ps, ho, hs⟩
    rw [check_spaced hs ho] at h
    split at h
    · simp at h
    · split at h <;> simp at h
  · intro h
    have : (parseFormat s).invalid ≠ 0 := fun e => h (readFormat_of _ s {} (Nat.le_refl _) e)
    simp [checkFormat, this]

/-- **C54 (valid formats pass).** No format of the manual is reported as invalid. -/
theorem C54_valid_passes {ps : List Piece} (ho : Spec.Ok ps) (n : Nat) : checkFormat (render ps) n ≠ some .invalid :=
  fun h => (C54_invalid_iff _ n).mp h ⟨ps, ho, spaced_render ho⟩

/-- **C54 (invalid formats are found).** Everything else is, unless a blank stands directly behind a `%`. -/
theorem C54_invalid_found {s : Str} (hb : NoBlank s) (h : ¬ ∃ ps, Spec.Ok ps ∧ render ps = s) (n : Nat) : checkFormat s n = some .invalid :=
  (C54_invalid_iff s n).mpr (fun ⟨ps, ho, hs⟩ => h ⟨ps, ho, render_of_spaced hs ho hb⟩)

/-- **C54 (constants).** `sprintf` is called useless exactly for the formats without conversions, and what is proposed is what the format stands for. -/
theorem C54_useless {ps : List Piece} (ho : Spec.Ok ps) (n : Nat) (t : Str) : checkFormat (render ps) n = some (.useless t) ↔ convs ps = [] ∧ t = plainText ps := by
  rw [check_spaced (spaced_render ho) ho]
  by_cases h : convs ps = []
  · simp only [h, if_true, Option.some.injEq, FmtReport.useless.injEq, true_and]
    exact ⟨fun e => e.symm, fun e => e.symm⟩
  · simp only [h, if_false, false_and, iff_false]
    split <;> simp

/-- **C54 (number of arguments).** A format whose conversions all have no position is reported, unless the arguments are those that it uses. -/
theorem C54_mismatch {ps : List Piece} (ho : Spec.Ok ps) (hu : Unnumbered ps) (hc : convs ps ≠ []) (n : Nat) : checkFormat (render ps) n = none ↔ Fits ps n := by
  rw [check_spaced (spaced_render ho) ho]
  simp only [hc, if_false]
  have := fits_unnumbered hu
  by_cases h : wanted ps = n
  · simp only [h, ne_eq, not_true_eq_false, if_false, true_iff]; rw [← h]; exact this
  · simp only [ne_eq, h, not_false_eq_true, if_true]
    constructor
    · intro e; simp at e
    · intro e; exact absurd (fits_unique this e) h

/-- **C54 (number of arguments, with positions).** If all have a position and these are 1 to some number, too. -/
theorem C54_mismatch_numbered {ps : List Piece} (ho : Spec.Ok ps) (hu : Numbered ps) (hc : convs ps ≠ []) (hm : ∃ m, Fits ps m) (n : Nat) :
    checkFormat (render ps) n = none ↔ Fits ps n := by
  rw [check_spaced (spaced_render ho) ho]
  simp only [hc, if_false]
  obtain ⟨m, hm⟩ := hm
  have e := fits_numbered hu hc hm
  by_cases h : wanted ps = n
  · simp only [h, ne_eq, not_true_eq_false, if_false, true_iff]; rw [← h, e]; exact hm
  · simp only [ne_eq, h, not_false_eq_true, if_true]
    constructor
    · intro x; simp at x
    · intro x; exact absurd (fits_numbered hu hc x) h

/-- **C54 (what is said about the numbers).** The message names the number of arguments that would fit. -/
theorem C54_mismatch_message {ps : List Piece} (ho : Spec.Ok ps) (hu : Unnumbered ps) {n e g : Nat} (h : checkFormat (render ps) n = some (.mismatch e g)) : g = n ∧ Fits ps e ∧ e ≠ n := by
  rw [check_spaced (spaced_render ho) ho] at h
  split at h
  · simp at h
  · split at h
    · simp only [Option.some.injEq, FmtReport.mismatch.injEq] at h
      obtain ⟨rfl, rfl⟩ := h
      exact ⟨rfl, fits_unnumbered hu, by assumption⟩
    · simp at h

/-- The statements speak about something: `%-5.2f of %% and %*d` is a format that uses the arguments 1 to 3. -/
theorem C54_example :
    ∃ ps, Spec.Ok ps ∧ Unnumbered ps ∧ convs ps ≠ [] ∧ render ps = cs! "\"%-5.2f of %% and %*d\"" ∧ Fits ps 3 ∧ checkFormat (render ps) 3 = none ∧ checkFormat (render ps) 2 = some (.mismatch 3 2) := by
  refine ⟨[.char '"', .conv ⟨none, ['-'], .digits ['5'], some (.digits ['2']), 'f'⟩, .char ' ', .char 'o', .char 'f', .char ' ', .percent, .char ' ', .char 'a', .char 'n', .char 'd', .char ' ',
    .conv ⟨none, [], .star, none, 'd'⟩, .char '"'], ?_, ?_, by simp [convs], by decide, ?_, by decide +kernel, by decide +kernel⟩
  · intro p hp
    simp only [List.mem_cons, List.not_mem_nil, or_false] at hp
    rcases hp with h | h | h | h | h | h | h | h | h | h | h | h | h | h <;> subst h <;> simp [Conv.Ok, Width.Ok, Width.PrecOk, Digits]
  · intro v hv
    simp [convs] at hv
    rcases hv with rfl | rfl <;> rfl
  · have := fits_unnumbered (ps := [.char '"', .conv ⟨none, ['-'], .digits ['5'], some (.digits ['2']), 'f'⟩, .char ' ', .char 'o', .char 'f', .char ' ', .percent, .char ' ', .char 'a', .char 'n', .char 'd', .char ' ',
      .conv ⟨none, [], .star, none, 'd'⟩, .char '"']) (by intro v hv; simp [convs] at hv; rcases hv with rfl | rfl <;> rfl)
    exact this

/-- ... and so do those about positions: `%2$s %1$s`. -/
theorem C54_example_numbered : ∃ ps, Spec.Ok ps ∧ Numbered ps ∧ convs ps ≠ [] ∧ render ps = cs! "%2$s %1$s" ∧ Fits ps 2 ∧ checkFormat (render ps) 2 = none ∧ checkFormat (render ps) 3 = some (.mismatch 2 3) := by
  refine ⟨[.conv ⟨some ['2'], [], .none, none, 's'⟩, .char ' ', .conv ⟨some ['1'], [], .none, none, 's'⟩], ?_, ?_, by simp [convs], by decide, ?_, by decide +kernel, by decide +kernel⟩
  · intro p hp
    simp only [List.mem_cons, List.not_mem_nil, or_false] at hp
    rcases hp with h | h | h <;> subst h <;> simp [Conv.Ok, Width.Ok, Digits, value]
  · intro v hv
    simp [convs] at hv
    rcases hv with rfl | rfl <;> simp [Conv.stars]
  · intro i
    simp [uses, Conv.stars, value]
    omega

/-! ## Where it goes wrong -/

/-- `sprintf("%2$s", a, b)` is not reported, although `a` is not used. -/
theorem C54_false_gap : ∃ ps, Spec.Ok ps ∧ Numbered ps ∧ render ps = cs! "%2$s" ∧ checkFormat (render ps) 2 = none ∧ ¬ Fits ps 2 := by
  refine ⟨[.conv ⟨some ['2'], [], .none, none, 's'⟩], ?_, ?_, by decide, by decide +kernel, ?_⟩
  · intro p hp
    simp only [List.mem_cons, List.not_mem_nil, or_false] at hp
    subst hp; simp [Conv.Ok, Width.Ok, Digits, value]
  · intro v hv
    simp [convs] at hv
    subst hv; simp [Conv.stars]
  · intro h
    have := (h 1).mpr (by omega)
    simp [uses, Conv.stars, value] at this

/-- `sprintf("%1$s %s %s", a, b)` is reported, although it uses `a` and `b`. -/
theorem C54_false_mixed : ∃ ps, Spec.Ok ps ∧ render ps = cs! "%1$s %s %s" ∧ checkFormat (render ps) 2 = some (.mismatch 1 2) ∧ Fits ps 2 := by
  refine ⟨[.conv ⟨some ['1'], [], .none, none, 's'⟩, .char ' ', .conv ⟨none, [], .none, none, 's'⟩, .char ' ', .conv ⟨none, [], .none, none, 's'⟩], ?_, by decide, by decide +kernel, ?_⟩
  · intro p hp
    simp only [List.mem_cons, List.not_mem_nil, or_false] at hp
    rcases hp with h | h | h | h | h <;> subst h <;> simp [Conv.Ok, Width.Ok, Digits, value]
  · intro i
    simp [uses, Conv.stars, value]
    omega

/-- `sprintf("% %")` is not reported as invalid but as the constant `"%"`, and `"% 1$s"` passes: R accepts neither. -/
theorem C54_false_blank : checkFormat (cs! "\"% %\"") 0 = some (.useless (cs! "\"%\"")) ∧ checkFormat (cs! "\"% 1$s\"") 1 = none := by
  decide +kernel

/-- `sprintf("%0$s")` passes with no arguments, and `sprintf("%1$*2$d", x, 5)`, which R accepts, is reported as invalid. -/
theorem C54_false_zero : checkFormat (cs! "\"%0$s\"") 0 = none ∧ checkFormat (cs! "\"%1$*2$d\"") 2 = some .invalid := by
  decide +kernel

end Jarl

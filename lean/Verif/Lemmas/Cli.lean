import Verif.Spec.Cli
/-!
# Lemmas: comparison functions, stable sorting
-/
namespace Jarl
open Spec

theorem splitOn_injective {c : Char} : ∀ {s t : Str}, splitOn c s = splitOn c t → s = t := by
  have key : ∀ n (s t : Str), s.length ≤ n → splitOn c s = splitOn c t → s = t := by
    intro n
    induction n with
    | zero =>
      intro s t hs h
      have : s = [] := List.eq_nil_of_length_eq_zero (by omega)
      subst this
      rw [splitOn_no (by simp)] at h
      obtain ⟨h1, _⟩ := splitOn_eq_singleton.mp h.symm
      exact h1.symm
    | succ n ih =>
      intro s t hs h
      cases hsp : splitFirst c s with
      | none =>
        rw [splitOn_no (splitFirst_none.mp hsp)] at h
        exact (splitOn_eq_singleton.mp h.symm).1.symm
      | some ab =>
        obtain ⟨a, b⟩ := ab
        obtain ⟨hs', ha⟩ := splitFirst_iff.mp hsp
        subst hs'
        rw [show a ++ c :: b = a ++ c :: b from rfl, splitOn_append ha b] at h
        cases hb : splitOn c b with
        | nil => exact absurd hb (splitOn_ne_nil c b)
        | cons x xs =>
          rw [hb] at h
          obtain ⟨r, ht, _, hr⟩ := splitOn_eq_cons.mp h.symm
          rw [ht]
          congr 2
          apply ih
          · simp at hs; omega
          · rw [hb, hr]
  intro s t h
  exact key _ s t (Nat.le_refl _) h

/-- A comparison function that decides a strict order `lt`. -/
structure Decides (cmp : α → α → Ordering) (lt : α → α → Prop) : Prop where
  lt_iff : ∀ a b, cmp a b = .lt ↔ lt a b
  gt_iff : ∀ a b, cmp a b = .gt ↔ lt b a
  eq_iff : ∀ a b, cmp a b = .eq ↔ a = b
  trans : ∀ a b c, lt a b → lt b c → lt a c

theorem natCmp_decides : Decides natCmp (· < ·) where
  lt_iff a b := by unfold natCmp; split <;> (try split) <;> simp <;> omega
  gt_iff a b := by unfold natCmp; split <;> (try split) <;> simp <;> omega
  eq_iff a b := by unfold natCmp; split <;> (try split) <;> simp <;> omega
  trans a b c := Nat.lt_trans

theorem charCmp_decides : Decides (fun a b : Char => natCmp a.toNat b.toNat) (fun x y => x.toNat < y.toNat) where
  lt_iff a b := natCmp_decides.lt_iff _ _
  gt_iff a b := natCmp_decides.gt_iff _ _
  eq_iff a b := by
    rw [natCmp_decides.eq_iff]
    constructor
    · intro h
      exact Char.ext (UInt32.toNat_inj.mp h)
    · rintro rfl; rfl
  trans a b c := natCmp_decides.trans _ _ _

theorem lex_decides {cmp : α → α → Ordering} {lt : α → α → Prop} (h : Decides cmp lt) :
    Decides (lexCmp cmp) (List.Lex lt) := by
  have hirr : ∀ a, ¬ lt a a := by
    intro a ha
    have h1 := (h.lt_iff a a).mpr ha
    rw [(h.eq_iff a a).mpr rfl] at h1
    cases h1
  constructor
  · intro a
    induction a with
    | nil => intro b; cases b <;> simp [lexCmp]
    | cons x xs ih =>
      intro b
      cases b with
      | nil => simp [lexCmp]
      | cons y ys =>
        unfold lexCmp
        cases hc : cmp x y with
        | lt => simp only [true_iff]; exact .rel ((h.lt_iff x y).mp hc)
        | eq =>
          simp only
          obtain rfl := (h.eq_iff x y).mp hc
          rw [ih]
          constructor
          · exact .cons
          · intro hl
            cases hl with
            | rel hr => exact absurd hr (hirr x)
            | cons hr => exact hr
        | gt =>
          simp only [reduceCtorEq, false_iff]
          intro hl
          have hg := (h.gt_iff x y).mp hc
          cases hl with
          | rel hr => exact hirr x (h.trans _ _ _ hr hg)
          | cons hr => exact hirr _ hg
  · intro a
    induction a with
    | nil => intro b; cases b <;> simp [lexCmp]
    | cons x xs ih =>
      intro b
      cases b with
      | nil => simp [lexCmp]
      | cons y ys =>
        unfold lexCmp
        cases hc : cmp x y with
        | gt => simp only [true_iff]; exact .rel ((h.gt_iff x y).mp hc)
        | eq =>
          simp only
          obtain rfl := (h.eq_iff x y).mp hc
          rw [ih]
          constructor
          · exact .cons
          · intro hl
            cases hl with
            | rel hr => exact absurd hr (hirr x)
            | cons hr => exact hr
        | lt =>
          simp only [reduceCtorEq, false_iff]
          intro hl
          have hg := (h.lt_iff x y).mp hc
          cases hl with
          | rel hr => exact hirr x (h.trans _ _ _ hg hr)
          | cons hr => exact hirr _ hg
  · intro a
    induction a with
    | nil => intro b; cases b <;> simp [lexCmp]
    | cons x xs ih =>
      intro b
      cases b with
      | nil => simp [lexCmp]
      | cons y ys =>
        unfold lexCmp
        cases hc : cmp x y with
        | eq =>
          obtain rfl := (h.eq_iff x y).mp hc
          simp only [ih, List.cons.injEq, true_and]
        | lt =>
          simp only [reduceCtorEq, false_iff, List.cons.injEq, not_and]
          rintro rfl
          rw [(h.eq_iff x x).mpr rfl] at hc
          cases hc
        | gt =>
          simp only [reduceCtorEq, false_iff, List.cons.injEq, not_and]
          rintro rfl
          rw [(h.eq_iff x x).mpr rfl] at hc
          cases hc
  · intro a
    induction a with
    | nil =>
      intro b c hab hbc
      cases hbc with
      | nil => cases hab
      | rel _ => exact .nil
      | cons _ => exact .nil
    | cons x xs ih =>
      intro b c hab hbc
      cases hab with
      | rel h1 =>
        cases hbc with
        | rel h2 => exact .rel (h.trans _ _ _ h1 h2)
        | cons _ => exact .rel h1
      | cons h1 =>
        cases hbc with
        | rel h2 => exact .rel h2
        | cons h2 => exact .cons (ih _ _ h1 h2)

theorem strCmp_decides : Decides strCmp StrLt := lex_decides charCmp_decides

theorem pathCmp_decides : Decides pathCmp PathLt where
  lt_iff a b := (lex_decides strCmp_decides).lt_iff _ _
  gt_iff a b := (lex_decides strCmp_decides).gt_iff _ _
  eq_iff a b := by
    show lexCmp strCmp _ _ = .eq ↔ _
    rw [(lex_decides strCmp_decides).eq_iff]
    exact ⟨splitOn_injective, fun h => h ▸ rfl⟩
  trans a b c := (lex_decides strCmp_decides).trans _ _ _

theorem diagLe_iff (a b : Diagnostic) : diagLe a b = true ↔ NotAfter a b := by
  unfold diagLe diagCmp NotAfter
  cases hc : pathCmp a.filename b.filename with
  | lt =>
    simp only [bne_iff_ne, ne_eq, reduceCtorEq, not_false_eq_true, true_iff]
    exact .inl ((pathCmp_decides.lt_iff _ _).mp hc)
  | gt =>
    simp only [bne_self_eq_false, Bool.false_eq_true, false_iff]
    have hg := (pathCmp_decides.gt_iff _ _).mp hc
    rintro (h | ⟨h, _⟩)
    · rw [(pathCmp_decides.lt_iff _ _).mpr h] at hc; cases hc
    · rw [(pathCmp_decides.eq_iff _ _).mpr h] at hc; cases hc
  | eq =>
    have he := (pathCmp_decides.eq_iff _ _).mp hc
    have hn : ¬ PathLt a.filename b.filename := by
      intro h
      rw [(pathCmp_decides.lt_iff _ _).mpr h] at hc; cases hc
    simp only [bne_iff_ne, ne_eq, he]
    rw [he] at hn
    simp only [hn, true_and, false_or]
    unfold rangeCmp natCmp
    by_cases h1 : a.range.start < b.range.start
    · simp [h1]
    · by_cases h2 : a.range.start = b.range.start
      · by_cases h3 : a.range.stop < b.range.stop
        · simp [h2, h3]; omega
        · by_cases h4 : a.range.stop = b.range.stop
          · simp [h2, h4]
          · simp [h2, h3, h4]; omega
      · simp [h1, h2]

theorem diagLe_trans (a b c : Diagnostic) (h1 : diagLe a b = true) (h2 : diagLe b c = true) : diagLe a c = true := by
  rw [diagLe_iff] at *
  rcases h1 with h1 | ⟨e1, h1⟩
  · rcases h2 with h2 | ⟨e2, h2⟩
    · exact .inl (pathCmp_decides.trans _ _ _ h1 h2)
    · exact .inl (e2 ▸ h1)
  · rcases h2 with h2 | ⟨e2, h2⟩
    · exact .inl (e1 ▸ h2)
    · exact .inr ⟨e1.trans e2, by omega⟩

theorem diagLe_total (a b : Diagnostic) : (diagLe a b || diagLe b a) = true := by
  rw [Bool.or_eq_true, diagLe_iff, diagLe_iff]
  unfold NotAfter
  cases hc : pathCmp a.filename b.filename with
  | lt => exact .inl (.inl ((pathCmp_decides.lt_iff _ _).mp hc))
  | gt => exact .inr (.inl ((pathCmp_decides.gt_iff _ _).mp hc))
  | eq =>
    have he := (pathCmp_decides.eq_iff _ _).mp hc
    by_cases h : a.range.start < b.range.start ∨ (a.range.start = b.range.start ∧ a.range.stop ≤ b.range.stop)
    · exact .inl (.inr ⟨he, h⟩)
    · exact .inr (.inr ⟨he.symm, by omega⟩)

/-! ### Stable sorting -/

section
variable {le : α → α → Bool}

/-- The elements that are equivalent to `x`. -/
def sameKey (le : α → α → Bool) (x y : α) : Bool := le x y && le y x

theorem sorted_eq_of_filters (trans : ∀ a b c, le a b → le b c → le a c) (total : ∀ a b, (le a b || le b a) = true) :
    ∀ {s t : List α}, s.Pairwise (fun a b => le a b) → t.Pairwise (fun a b => le a b) →
      (∀ x, s.filter (sameKey le x) = t.filter (sameKey le x)) → s = t
  | [], t, _, _, h => by
    cases t with
    | nil => rfl
    | cons b t =>
      have := h b
      have hb : sameKey le b b = true := by simpa [sameKey] using total b b
      simp [List.filter_cons, hb] at this
  | a :: s, [], _, _, h => by
    have := h a
    have ha : sameKey le a a = true := by simpa [sameKey] using total a a
    simp [List.filter_cons, ha] at this
  | a :: s, b :: t, hs, ht, h => by
    have haa : sameKey le a a = true := by simpa [sameKey] using total a a
    have hbb : sameKey le b b = true := by simpa [sameKey] using total b b
    rw [List.pairwise_cons] at hs ht
    have hab : le a b = true := by
      have hm : b ∈ (a :: s).filter (sameKey le b) := by rw [h b]; exact List.mem_filter.mpr ⟨List.mem_cons_self, hbb⟩
      rcases List.mem_cons.mp (List.mem_filter.mp hm).1 with rfl | hm
      · simpa using total b b
      · exact hs.1 _ hm
    have hba : le b a = true := by
      have hm : a ∈ (b :: t).filter (sameKey le a) := by rw [← h a]; exact List.mem_filter.mpr ⟨List.mem_cons_self, haa⟩
      rcases List.mem_cons.mp (List.mem_filter.mp hm).1 with rfl | hm
      · simpa using total a a
      · exact ht.1 _ hm
    have hsame : sameKey le a b = true := by simp [sameKey, hab, hba]
    have hf := h a
    rw [List.filter_cons_of_pos haa, List.filter_cons_of_pos hsame] at hf
    obtain ⟨rfl, _⟩ := List.cons.inj hf
    congr 1
    apply sorted_eq_of_filters trans total hs.2 ht.2
    intro x
    have hx := h x
    by_cases hxa : sameKey le x a = true
    · rw [List.filter_cons_of_pos hxa, List.filter_cons_of_pos hxa] at hx
      exact (List.cons.inj hx).2
    · rw [List.filter_cons_of_neg hxa, List.filter_cons_of_neg hxa] at hx
      exact hx

theorem mergeSort_filter (trans : ∀ a b c, le a b → le b c → le a c) (total : ∀ a b, (le a b || le b a) = true)
    (l : List α) (x : α) : (l.mergeSort le).filter (sameKey le x) = l.filter (sameKey le x) := by
  have h1 : (l.filter (sameKey le x)).Pairwise (fun a b => le a b) := by
    apply List.Pairwise.imp_of_mem (R := fun _ _ => True)
    · intro a b ha hb _
      have ha := (List.mem_filter.mp ha).2
      have hb := (List.mem_filter.mp hb).2
      simp only [sameKey, Bool.and_eq_true] at ha hb
      exact trans _ _ _ ha.2 hb.1
    · exact List.pairwise_of_forall (fun _ _ => trivial)
  have h2 := List.sublist_mergeSort trans total h1 List.filter_sublist
  have h3 := h2.filter (sameKey le x)
  rw [List.filter_filter] at h3
  simp only [Bool.and_self] at h3
  refine (h3.eq_of_length ?_).symm
  exact ((List.mergeSort_perm l le).symm.filter _).length_eq

/-- A stable sort only depends on the order of equivalent elements. -/
theorem mergeSort_eq (trans : ∀ a b c, le a b → le b c → le a c) (total : ∀ a b, (le a b || le b a) = true)
    {l m : List α} (h : ∀ x, l.filter (sameKey le x) = m.filter (sameKey le x)) : l.mergeSort le = m.mergeSort le := by
  apply sorted_eq_of_filters trans total (List.pairwise_mergeSort trans total l) (List.pairwise_mergeSort trans total m)
  intro x
  rw [mergeSort_filter trans total, mergeSort_filter trans total, h]
end

end Jarl

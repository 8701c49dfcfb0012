import Verif.Lemmas.RValue
import Verif.Props.RLawsMain
/-!
# C79: fixes keep what the code computes (calls)
-/
namespace Jarl
open Spec

theorem keeps_of_law {name : Str} {r : Zip → Option Edit} {cond : Zip → Prop} {dom : Env → Node → Prop} (hl : Lawful name r cond)
    (h : ∀ old new, Law name old new → ∀ E v, dom E old → eval E old = .val v → eval E new = .val v) : KeepsValue r cond dom := by
  intro ts p z ed e' hp hz hr hc hpi hcond hpl E v hd hv
  exact h _ _ (hl ts p z ed e' hp hz hr hc hpi hcond hpl) E v hd hv

theorem own_one {e : Node} (h : own 1 e) : ownHead e ∧ ∀ x ∈ subs e, ownHead x := h

/-- The argument of a call that is a call. -/
theorem own_arg {f g : Node} {as : List Node} (h : own 1 (callOf f [callOf g as])) : ownHead (callOf f [callOf g as]) ∧ ownHead (callOf g as) := by
  refine ⟨h.1, h.2 (callOf g as) ?_⟩
  simp [subs, callOf, mkArgs, items, argList, valueOf]

theorem any3_map_some (l : List Bool) : any3 (l.map some) = some (l.any id) := by
  unfold any3
  by_cases h : true ∈ l
  · rw [if_pos (List.mem_map.mpr ⟨_, h, rfl⟩)]
    simp only [Option.some.injEq]
    exact (List.any_eq_true.mpr ⟨true, h, rfl⟩).symm
  · rw [if_neg, if_neg]
    · simp only [Option.some.injEq]
      symm
      rw [List.any_eq_false]
      intro x hx
      cases x
      · simp
      · exact absurd hx h
    · simp
    · intro hm
      obtain ⟨b, hb, e⟩ := List.mem_map.mp hm
      cases e
      exact h hb

theorem elems_each {f : α → β} {v : Vec α} : elems (each f v) = (elems v).map f := by simp [elems, each, Function.comp_def]

theorem elems_plain {l : List α} : elems (plain l) = l := by simp [elems, plain, Function.comp_def]

/-! ### any_is_na, any_duplicated, length_levels, which_grepl -/

theorem nested_args {E : Env} {f g : Node} {as : List Node} {s t : Str} (hf : headName f = some s) (hg : headName g = some t) :
    eval E (callOf f [callOf g as]) = callV E s [(none, callV E t (rawArgs E as) (fn t as))] (fn s [callOf g as]) := by
  rw [eval_callOf hf]
  congr 1
  have : callOf g as ≠ .hole := by simp [callOf]
  rw [rawArgs_single this]
  rw [← eval_callOf (E := E) hg]
  simp [callOf, evalBoth, eval, hg]

theorem value_any_is_na {E : Env} {f g : Node} {as : List Node} (hf : headName f = some (cs! "any")) (hg : headName g = some (cs! "is.na")) {v : Value}
    (h : eval E (callOf f [callOf g as]) = .val v) : eval E (fn (cs! "anyNA") as) = .val v := by
  rw [nested_args hf hg] at h
  obtain ⟨x, h1, h2⟩ := unary'_val (show unary' anyV [(none, unary isNaV (rawArgs E as))] = .val v from h)
  simp only [List.cons.injEq, Prod.mk.injEq, true_and, and_true] at h1
  obtain ⟨n, y, h3, h4, h5⟩ := unary_val h1
  rw [eval_fn]
  show unary anyNaV (rawArgs E as) = .val v
  rw [h3]
  simp only [unary, if_pos h4, Res.bind]
  unfold isNaV at h5
  unfold anyNaV
  cases hm : missing y with
  | none => rw [hm] at h5; cases h5
  | some m =>
    rw [hm] at h5
    cases h5
    simp only [anyV, logicals, elems_each, any3_map_some] at h2
    exact h2

/-- The number of the first one. -/
theorem first_dup (l : List Bool) : (0 : Rat) < ((firstTrue l : Int) : Rat) ↔ l.any id = true := by
  unfold firstTrue
  cases h : l.findIdx? id with
  | none =>
    rw [List.findIdx?_eq_none_iff] at h
    simp only [Rat.intCast_zero, Rat.lt_irrefl, false_iff]
    intro ha
    obtain ⟨x, hx, h'⟩ := List.any_eq_true.mp ha
    simp_all
  | some i =>
    rw [List.findIdx?_eq_some_iff_getElem] at h
    obtain ⟨hi, h1, _⟩ := h
    constructor
    · intro _; exact List.any_eq_true.mpr ⟨_, List.getElem_mem hi, h1⟩
    · intro _
      have : (0 : Int) < (i : Int) + 1 := by omega
      show (0 : Rat) < (((i : Int) + 1 : Int) : Rat)
      exact_mod_cast this

theorem recycle_plain {f : α → β → γ} {a : α} {b : β} : recycled f (plain [a]) (plain [b]) = plain [f a b] := by
  simp [recycled, plain, hasNames, List.range_succ]

theorem eval_zero {E : Env} : eval E (.atom .none .double (cs! "0")) = .val (.dbl (plain [.num 0])) := by
  have : plainDecimal (cs! "0") = some 0 := by rfl
  simp only [eval, evalBoth, atomV, this]

theorem compare_int_zero {E : Env} {n : Int} : compareV E .gt (ints [n]) (.dbl (plain [.num 0])) = .val (one (some (decide ((0 : Rat) < n)))) := by
  have e : (each ofInt (plain ([n].map some)) : Vec Dbl) = plain [.num n] := rfl
  simp only [compareV, ints, isStr, numbers, e, Bool.or_self, Bool.false_eq_true, if_false, recycle_plain, one]
  congr 3
  simp only [compareNum, Dbl.key, compare3, keyLt]
  congr 2
  by_cases h : (0 : Rat) < n
  · have h1 : ¬ ((n : Rat) < 0) := by exact Rat.not_lt.mpr (Rat.le_of_lt h)
    have h2 : ¬ ((n : Rat) = 0) := fun e => by rw [e] at h; exact Rat.lt_irrefl h
    simp [h, h1, h2]
  · simp only [h, decide_false]
    by_cases h1 : (n : Rat) = 0
    · simp [h1]
    · simp [Rat.lt_of_le_of_ne (Rat.not_lt.mp h) h1]

theorem value_any_duplicated {E : Env} {f g : Node} {as : List Node} (hf : headName f = some (cs! "any")) (hg : headName g = some (cs! "duplicated")) {v : Value}
    (h : eval E (callOf f [callOf g as]) = .val v) : eval E (.bin (fn (cs! "anyDuplicated") as) .none .gt (.atom .none .double (cs! "0"))) = .val v := by
  rw [nested_args hf hg] at h
  obtain ⟨x, h1, h2⟩ := unary'_val (show unary' anyV [(none, unary duplicatedV (rawArgs E as))] = .val v from h)
  simp only [List.cons.injEq, Prod.mk.injEq, true_and, and_true] at h1
  obtain ⟨n, y, h3, h4, h5⟩ := unary_val h1
  rw [eval_bin, eval_fn, eval_zero]
  show (unary anyDuplicatedV (rawArgs E as)).bind (fun a => compareV E .gt a (.dbl (plain [.num 0]))) = .val v
  rw [h3]
  simp only [unary, if_pos h4, Res.bind]
  unfold duplicatedV at h5
  unfold anyDuplicatedV
  cases hm : dupFlags y with
  | none => rw [hm] at h5; cases h5
  | some m =>
    rw [hm] at h5
    cases h5
    simp only [anyV, logicals, elems_plain, any3_map_some] at h2
    simp only [compare_int_zero, ← h2]
    congr 3
    rw [Bool.eq_iff_iff]
    rw [decide_eq_true_iff]
    exact first_dup m

theorem value_length_levels {E : Env} {f g : Node} {as : List Node} (hf : headName f = some (cs! "length")) (hg : headName g = some (cs! "levels")) {v : Value}
    (h : eval E (callOf f [callOf g as]) = .val v) : eval E (fn (cs! "nlevels") as) = .val v := by
  rw [nested_args hf hg] at h
  obtain ⟨_, x, h1, _, h2⟩ := unary_val (show unary lengthV [(none, unary levelsV (rawArgs E as))] = .val v from h)
  simp only [List.cons.injEq, Prod.mk.injEq, and_true] at h1
  obtain ⟨n, y, h3, h4, h5⟩ := unary_val h1.2
  rw [eval_fn]
  show unary nlevelsV (rawArgs E as) = .val v
  rw [h3]
  simp only [unary, if_pos h4, Res.bind]
  rw [← h2]
  cases y <;> simp [levelsV] at h5 <;> subst h5 <;> simp [nlevelsV, lengthV, len, plain]

theorem places_trueAt (f : α → Bool) : ∀ (i : Nat) (l : List α), trueAt i (plain (l.map (fun a => some (f a)))) = plain ((places f i l).map some)
  | _, [] => rfl
  | i, a :: l => by
    have ih := places_trueAt f (i + 1) l
    simp only [plain, List.map_cons, trueAt, places] at ih ⊢
    cases f a
    · simp only [Option.some.injEq, Bool.false_eq_true, if_false]; exact ih
    · simp only [if_true, List.map_cons]; rw [ih]

/-- `grepl` and `grep` look at the same arguments. -/
theorem withFixed_val {f g : Bool → List Value → Res} {as : Args} {v : Value} (h : withFixed f as = .val v) :
    ∃ b l, f b l = .val v ∧ withFixed g as = g b l := by
  have key : ∀ b as, withParams [cs! "pattern", cs! "x"] (f b) as = .val v → ∃ l, f b l = .val v ∧ withParams [cs! "pattern", cs! "x"] (g b) as = g b l := by
    intro b as h
    unfold withParams at h ⊢
    split at h
    · rename_i hl
      rw [if_pos hl]
      simp only [List.map_cons, List.map_nil] at h ⊢
      cases h1 : passed [cs! "pattern", cs! "x"] as (cs! "pattern") with
      | none => rw [h1] at h; cases h
      | some r1 =>
        rw [h1] at h
        cases h2 : passed [cs! "pattern", cs! "x"] as (cs! "x") with
        | none =>
          rw [h2] at h
          simp only [collect] at h
          cases r1 <;> cases h
        | some r2 =>
          rw [h2] at h
          simp only [collect] at h ⊢
          obtain ⟨w1, rfl, h3⟩ := bind_val h
          obtain ⟨w2, rfl, h4⟩ := bind_val h3
          exact ⟨[w1, w2], h4, rfl⟩
    · cases h
  unfold withFixed at h ⊢
  split at h
  · split at h
    · rename_i hn
      obtain ⟨l, h1, h2⟩ := key true _ h
      exact ⟨true, l, h1, by rw [if_pos hn]; exact h2⟩
    · cases h
  · obtain ⟨l, h1, h2⟩ := key false _ h
    exact ⟨false, l, h1, h2⟩

theorem value_which_grepl {E : Env} {f g : Node} {as : List Node} (hf : headName f = some (cs! "which")) (hg : headName g = some (cs! "grepl")) {v : Value}
    (h : eval E (callOf f [callOf g as]) = .val v) : eval E (fn (cs! "grep") as) = .val v := by
  rw [nested_args hf hg] at h
  obtain ⟨_, x, h1, _, h2⟩ := unary_val (show unary whichV [(none, withFixed (greplV E) (rawArgs E as))] = .val v from h)
  simp only [List.cons.injEq, Prod.mk.injEq, and_true] at h1
  obtain ⟨b, l, h3, h4⟩ := withFixed_val (g := grepV E) h1.2
  rw [eval_fn]
  show withFixed (grepV E) (rawArgs E as) = .val v
  rw [h4, ← h2]
  unfold greplV at h3
  split at h3
  · rename_i p y
    unfold grepV
    cases hs : strings E y with
    | none => rw [hs] at h3; cases h3
    | some w =>
      rw [hs] at h3
      cases h3
      simp only [hs, whichV, places_trueAt, ints]
  · cases h3

end Jarl

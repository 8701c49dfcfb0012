import Verif.Spec.Toml
/-!
# C65: a configuration file means what it says
-/

namespace Jarl

open Spec

/-! ## Tables -/

theorem given_count (t : TomlTable) (k : Str) : given t k = (t.map Prod.fst).count k := by
  induction t with
  | nil => rfl
  | cons e t ih =>
    unfold given at *
    rw [List.filter_cons, List.map_cons, List.count_cons]
    by_cases h : e.1 = k
    · simp [h, ih]
    · simp [h, ih]

theorem known_iff (ks : List Str) (t : TomlTable) : known ks t = true ↔ Keys ks t := by
  unfold known Keys
  rw [Bool.and_eq_true, List.all_eq_true, List.all_eq_true, List.nodup_iff_count]
  constructor
  · rintro ⟨h1, h2⟩
    have h1' : ∀ k v, (k, v) ∈ t → k ∈ ks := fun k v h => by simpa using h1 (k, v) h
    refine ⟨h1', fun k => ?_⟩
    by_cases hk : k ∈ ks
    · have := of_decide_eq_true (h2 k hk)
      rwa [given_count] at this
    · rw [List.count_eq_zero_of_not_mem]
      · omega
      · intro hm
        obtain ⟨⟨a, b⟩, hab, rfl⟩ := List.mem_map.1 hm
        exact hk (h1' _ _ hab)
  · rintro ⟨h1, h2⟩
    refine ⟨fun e he => by simpa using h1 e.1 e.2 he, fun k _ => decide_eq_true ?_⟩
    rw [given_count]
    exact h2 k

theorem field_none (t : TomlTable) (k : Str) : field t k = none ↔ Absent t k := by
  unfold field Absent
  rw [Option.map_eq_none_iff, List.find?_eq_none]
  constructor
  · intro h v hv
    simpa using h (k, v) hv
  · intro h e he hk
    have : e.1 = k := by simpa using hk
    exact h e.2 (by rw [← this]; exact he)

theorem field_mem {t : TomlTable} {k : Str} {v : Toml} (h : field t k = some v) : (k, v) ∈ t := by
  unfold field at h
  obtain ⟨e, he, rfl⟩ := Option.map_eq_some_iff.1 h
  have h1 := List.mem_of_find?_eq_some he
  have h2 := List.find?_some he
  have : e.1 = k := by simpa using h2
  rw [← this]; exact h1

theorem field_of_mem {t : TomlTable} {k : Str} {v : Toml} (hn : (t.map Prod.fst).Nodup) (h : (k, v) ∈ t) : field t k = some v := by
  induction t with
  | nil => cases h
  | cons e t ih =>
    rw [List.map_cons, List.nodup_cons] at hn
    unfold field
    rw [List.find?_cons]
    rcases List.mem_cons.1 h with rfl | h
    · simp
    · have : e.1 ≠ k := by
        intro he
        exact hn.1 (he ▸ List.mem_map.2 ⟨_, h, rfl⟩)
      simp only [this, decide_false]
      exact ih hn.2 h

/-- A reader that says exactly what the value is. -/
def Reads {α : Type} (read : Toml → Option α) (IsA : Toml → α → Prop) : Prop := ∀ v a, read v = some a ↔ IsA v a

theorem reads_str : Reads asStr (fun v s => v = .str s) := by
  intro v a
  cases v <;> simp [asStr]

theorem strs_list (l : List Toml) (a : List Str) : l.mapM asStr = some a ↔ l = a.map .str := by
  induction l generalizing a with
  | nil => cases a <;> simp
  | cons v l ih =>
    rw [List.mapM_cons]
    cases hv : asStr v with
    | none =>
      simp only [Option.bind_eq_bind, Option.bind_none, reduceCtorEq, false_iff]
      cases a with
      | nil => simp
      | cons s a =>
        intro h
        rw [List.map_cons] at h
        injection h with h1 _
        rw [h1] at hv
        cases hv
    | some s =>
      rw [reads_str] at hv
      subst hv
      cases hl : l.mapM asStr with
      | none =>
        simp only [Option.bind_eq_bind, Option.bind_some, Option.bind_none, reduceCtorEq, false_iff]
        cases a with
        | nil => simp
        | cons s' a =>
          intro h
          rw [List.map_cons] at h
          injection h with _ h2
          rw [(ih a).2 h2] at hl
          cases hl
      | some r =>
        simp only [Option.bind_eq_bind, Option.bind_some, Option.pure_def, Option.some.injEq]
        cases a with
        | nil => simp
        | cons s' a =>
          rw [List.map_cons, List.cons.injEq, List.cons.injEq, ← ih a, hl, Option.some.injEq]
          simp

theorem reads_strs : Reads asStrs IsList := by
  intro v a
  cases v <;> simp [asStrs, IsList]
  exact strs_list _ _

theorem reads_bool : Reads asBool IsBool := by
  intro v a
  cases v <;> simp [asBool, IsBool]

theorem reads_nat : Reads asNat IsNat := by
  intro v a
  cases v <;> simp [asNat, IsNat]
  omega

theorem optional_iff {α : Type} {read : Toml → Option α} {IsA : Toml → α → Prop} (hr : Reads read IsA) {t : TomlTable}
    (hn : (t.map Prod.fst).Nodup) (k : Str) (o : Option α) : optional read t k = some o ↔ Setting IsA t k o := by
  unfold optional Setting
  cases hf : field t k with
  | none =>
    have ha := (field_none t k).1 hf
    simp only [Option.some.injEq]
    constructor
    · intro h; exact .inl ⟨ha, h.symm⟩
    · rintro (⟨_, h⟩ | ⟨v, a, hv, _⟩)
      · exact h.symm
      · exact absurd hv (ha v)
  | some v =>
    have hm := field_mem hf
    simp only [Option.map_eq_some_iff]
    constructor
    · rintro ⟨a, ha, rfl⟩
      exact .inr ⟨v, a, hm, (hr v a).1 ha, rfl⟩
    · rintro (⟨h, _⟩ | ⟨w, a, hw, ha, rfl⟩)
      · exact absurd hm (h v)
      · have := field_of_mem hn hw
        rw [hf] at this
        cases this
        exact ⟨a, (hr v a).2 ha, rfl⟩

/-! ## The tables of the rules -/

/-- A pair of lists as `asListOpt` reads it. -/
def IsListOpt (name : Str) (v : Toml) (o : ListOpt) : Prop :=
  ∃ s, v = .table s ∧ Keys [name, cs! "extend-" ++ name] s ∧ Setting IsList s name o.base ∧ Setting IsList s (cs! "extend-" ++ name) o.extend

theorem guard_iff {α : Type} {p : Prop} [Decidable p] {f : Unit → Option α} {a : α} : (guard p >>= f) = some a ↔ p ∧ f () = some a := by
  by_cases h : p
  · simp [h, guard]
  · simp only [guard, h, if_false, false_and, iff_false]
    intro h'
    cases h'

theorem guard_unit {p : Prop} [Decidable p] {u : Unit} : guard (f := Option) p = some u ↔ p := by
  by_cases h : p
  · simp [h, guard]
  · simp only [guard, h, if_false, iff_false]
    intro h'
    cases h'

theorem bind_iff {α β : Type} {x : Option α} {f : α → Option β} {b : β} : (x >>= f) = some b ↔ ∃ a, x = some a ∧ f a = some b := by
  cases x <;> simp

theorem reads_listOpt (name : Str) : Reads (asListOpt name) (IsListOpt name) := by
  intro v o
  unfold IsListOpt
  cases v with
  | table s =>
    simp only [asListOpt, bind_iff, guard_unit, exists_const, Option.some.injEq, Toml.table.injEq, exists_eq_left', known_iff]
    constructor
    · rintro ⟨hk, b, hb, e, he, rfl⟩
      exact ⟨hk, (optional_iff reads_strs hk.2 _ _).1 hb, (optional_iff reads_strs hk.2 _ _).1 he⟩
    · rintro ⟨hk, hb, he⟩
      exact ⟨hk, _, (optional_iff reads_strs hk.2 _ _).2 hb, _, (optional_iff reads_strs hk.2 _ _).2 he, rfl⟩
  | _ => simp [asListOpt]

/-- The options of `unused_function` as `asUnused` reads them. -/
def IsUnused (v : Toml) (o : UnusedOpt) : Prop :=
  ∃ s, v = .table s ∧ Keys [cs! "threshold-ignore", cs! "skipped-functions"] s ∧ Setting IsNat s (cs! "threshold-ignore") o.threshold ∧
    Setting IsList s (cs! "skipped-functions") o.skipped

theorem reads_unused : Reads asUnused IsUnused := by
  intro v o
  unfold IsUnused
  cases v with
  | table s =>
    simp only [asUnused, bind_iff, guard_unit, exists_const, Option.some.injEq, Toml.table.injEq, exists_eq_left', known_iff]
    constructor
    · rintro ⟨hk, b, hb, e, he, rfl⟩
      exact ⟨hk, (optional_iff reads_nat hk.2 _ _).1 hb, (optional_iff reads_strs hk.2 _ _).1 he⟩
    · rintro ⟨hk, hb, he⟩
      exact ⟨hk, _, (optional_iff reads_nat hk.2 _ _).2 hb, _, (optional_iff reads_strs hk.2 _ _).2 he, rfl⟩
  | _ => simp [asUnused]

/-- `assignment` as `asAssign` reads it. -/
def IsAssign (v : Toml) : AssignConf → Prop
  | .legacy w => v = .str w
  | .options op => ∃ s, v = .table s ∧ Keys [cs! "operator"] s ∧ Setting (fun v w => v = .str w) s (cs! "operator") op

theorem reads_assign : Reads asAssign IsAssign := by
  intro v o
  cases v with
  | str w => cases o <;> simp [asAssign, IsAssign]
  | table s =>
    simp only [asAssign, bind_iff, guard_unit, exists_const, Option.some.injEq, known_iff]
    cases o with
    | legacy w => simp [IsAssign]
    | options op =>
      simp only [IsAssign, Toml.table.injEq, exists_eq_left']
      constructor
      · rintro ⟨hk, b, hb, he⟩
        cases he
        exact ⟨hk, (optional_iff reads_str hk.2 _ _).1 hb⟩
      · rintro ⟨hk, hb⟩
        exact ⟨hk, _, (optional_iff reads_str hk.2 _ _).2 hb, rfl⟩
  | _ => cases o <;> simp [asAssign, IsAssign]

/-! ## `[lint]` -/

/-- `[lint]` as `asLint` reads it. -/
structure IsLint (t : TomlTable) (l : LinterToml) : Prop where
  select : Setting IsList t (cs! "select") l.select
  extendSelect : Setting IsList t (cs! "extend-select") l.extendSelect
  ignore : Setting IsList t (cs! "ignore") l.ignore
  fixable : Setting IsList t (cs! "fixable") l.fixable
  unfixable : Setting IsList t (cs! "unfixable") l.unfixable
  incl : Setting IsList t (cs! "include") l.incl
  excl : Setting IsList t (cs! "exclude") l.excl
  defaultExclude : Setting IsBool t (cs! "default-exclude") l.defaultExclude
  assignment : Setting IsAssign t (cs! "assignment") l.assignment
  dup : Setting (IsListOpt (cs! "skipped-functions")) t (cs! "duplicated_arguments") l.dup
  implicit : Setting (IsListOpt (cs! "skipped-functions")) t (cs! "implicit_assignment") l.implicit
  undesirable : Setting (IsListOpt (cs! "functions")) t (cs! "undesirable_function") l.undesirable
  unreachable : Setting (IsListOpt (cs! "stopping-functions")) t (cs! "unreachable_code") l.unreachable
  unused : Setting IsUnused t (cs! "unused_function") l.unused

/-- What `asLint` does, as a conjunction. -/
structure LintRead (t : TomlTable) (l : LinterToml) : Prop where
  once : lintKeys.all (fun k => decide (given t k ≤ 1)) = true
  select : optional asStrs t (cs! "select") = some l.select
  extendSelect : optional asStrs t (cs! "extend-select") = some l.extendSelect
  ignore : optional asStrs t (cs! "ignore") = some l.ignore
  fixable : optional asStrs t (cs! "fixable") = some l.fixable
  unfixable : optional asStrs t (cs! "unfixable") = some l.unfixable
  incl : optional asStrs t (cs! "include") = some l.incl
  excl : optional asStrs t (cs! "exclude") = some l.excl
  defaultExclude : optional asBool t (cs! "default-exclude") = some l.defaultExclude
  assignment : optional asAssign t (cs! "assignment") = some l.assignment
  dup : optional (asListOpt (cs! "skipped-functions")) t (cs! "duplicated_arguments") = some l.dup
  implicit : optional (asListOpt (cs! "skipped-functions")) t (cs! "implicit_assignment") = some l.implicit
  undesirable : optional (asListOpt (cs! "functions")) t (cs! "undesirable_function") = some l.undesirable
  unreachable : optional (asListOpt (cs! "stopping-functions")) t (cs! "unreachable_code") = some l.unreachable
  unused : optional asUnused t (cs! "unused_function") = some l.unused
  unknown : l.unknown = (t.map (·.1)).filter (fun k => !lintKeys.contains k)

theorem asLint_iff (t : TomlTable) (l : LinterToml) : asLint (.table t) = some l ↔ LintRead t l := by
  constructor
  · intro h
    unfold asLint at h
    obtain ⟨h0, h⟩ := guard_iff.1 h
    obtain ⟨_, h1, h⟩ := bind_iff.1 h
    obtain ⟨_, h2, h⟩ := bind_iff.1 h
    obtain ⟨_, h3, h⟩ := bind_iff.1 h
    obtain ⟨_, h4, h⟩ := bind_iff.1 h
    obtain ⟨_, h5, h⟩ := bind_iff.1 h
    obtain ⟨_, h6, h⟩ := bind_iff.1 h
    obtain ⟨_, h7, h⟩ := bind_iff.1 h
    obtain ⟨_, h8, h⟩ := bind_iff.1 h
    obtain ⟨_, h9, h⟩ := bind_iff.1 h
    obtain ⟨_, h10, h⟩ := bind_iff.1 h
    obtain ⟨_, h11, h⟩ := bind_iff.1 h
    obtain ⟨_, h12, h⟩ := bind_iff.1 h
    obtain ⟨_, h13, h⟩ := bind_iff.1 h
    obtain ⟨_, h14, h⟩ := bind_iff.1 h
    cases h
    exact ⟨h0, h1, h2, h3, h4, h5, h6, h7, h8, h9, h10, h11, h12, h13, h14, rfl⟩
  · intro h
    unfold asLint
    refine guard_iff.2 ⟨h.once, ?_⟩
    refine bind_iff.2 ⟨_, h.select, bind_iff.2 ⟨_, h.extendSelect, bind_iff.2 ⟨_, h.ignore, bind_iff.2 ⟨_, h.fixable, bind_iff.2
      ⟨_, h.unfixable, bind_iff.2 ⟨_, h.incl, bind_iff.2 ⟨_, h.excl, bind_iff.2 ⟨_, h.defaultExclude, bind_iff.2 ⟨_, h.assignment,
      bind_iff.2 ⟨_, h.dup, bind_iff.2 ⟨_, h.implicit, bind_iff.2 ⟨_, h.undesirable, bind_iff.2 ⟨_, h.unreachable, bind_iff.2 ⟨_, h.unused,
      ?_⟩⟩⟩⟩⟩⟩⟩⟩⟩⟩⟩⟩⟩⟩
    rw [← h.unknown]

theorem unknown_nil (t : TomlTable) :
    (t.map (·.1)).filter (fun k => !lintKeys.contains k) = [] ↔ ∀ k v, (k, v) ∈ t → k ∈ documentedKeys := by
  rw [List.filter_eq_nil_iff]
  constructor
  · intro h k v hv
    have := h k (List.mem_map.2 ⟨_, hv, rfl⟩)
    show k ∈ lintKeys
    simpa using this
  · intro h k hk
    obtain ⟨⟨a, b⟩, hab, rfl⟩ := List.mem_map.1 hk
    have h2 : a ∈ lintKeys := h _ _ hab
    simpa using h2

/-- Without unknown keys, `asLint` is the specification. -/
theorem lintRead_iff (t : TomlTable) (l : LinterToml) : LintRead t l ∧ l.unknown = [] ↔ Keys documentedKeys t ∧ IsLint t l ∧ l.unknown = [] := by
  have key : ∀ (hu : ∀ k v, (k, v) ∈ t → k ∈ documentedKeys),
      lintKeys.all (fun k => decide (given t k ≤ 1)) = true ↔ Keys documentedKeys t := by
    intro hu
    rw [← known_iff]
    have : t.all (fun e => documentedKeys.contains e.1) = true := by
      rw [List.all_eq_true]; intro e he; simpa using hu e.1 e.2 he
    unfold known
    rw [this, Bool.true_and]
    rfl
  constructor
  · rintro ⟨h, hn⟩
    have hu := (unknown_nil t).1 (h.unknown ▸ hn)
    have hk := (key hu).1 h.once
    have n := hk.2
    exact ⟨hk, ⟨(optional_iff reads_strs n _ _).1 h.select, (optional_iff reads_strs n _ _).1 h.extendSelect,
      (optional_iff reads_strs n _ _).1 h.ignore, (optional_iff reads_strs n _ _).1 h.fixable, (optional_iff reads_strs n _ _).1 h.unfixable,
      (optional_iff reads_strs n _ _).1 h.incl, (optional_iff reads_strs n _ _).1 h.excl, (optional_iff reads_bool n _ _).1 h.defaultExclude,
      (optional_iff reads_assign n _ _).1 h.assignment, (optional_iff (reads_listOpt _) n _ _).1 h.dup,
      (optional_iff (reads_listOpt _) n _ _).1 h.implicit, (optional_iff (reads_listOpt _) n _ _).1 h.undesirable,
      (optional_iff (reads_listOpt _) n _ _).1 h.unreachable, (optional_iff reads_unused n _ _).1 h.unused⟩, hn⟩
  · rintro ⟨hk, h, hn⟩
    have n := hk.2
    exact ⟨⟨(key hk.1).2 hk, (optional_iff reads_strs n _ _).2 h.select, (optional_iff reads_strs n _ _).2 h.extendSelect,
      (optional_iff reads_strs n _ _).2 h.ignore, (optional_iff reads_strs n _ _).2 h.fixable, (optional_iff reads_strs n _ _).2 h.unfixable,
      (optional_iff reads_strs n _ _).2 h.incl, (optional_iff reads_strs n _ _).2 h.excl, (optional_iff reads_bool n _ _).2 h.defaultExclude,
      (optional_iff reads_assign n _ _).2 h.assignment, (optional_iff (reads_listOpt _) n _ _).2 h.dup,
      (optional_iff (reads_listOpt _) n _ _).2 h.implicit, (optional_iff (reads_listOpt _) n _ _).2 h.undesirable,
      (optional_iff (reads_listOpt _) n _ _).2 h.unreachable, (optional_iff reads_unused n _ _).2 h.unused,
      hn.trans ((unknown_nil t).2 hk.1).symm⟩, hn⟩

/-! ## Settings -/

theorem ok_bind {α β : Type} {x : Except TomlFail α} {f : α → Except TomlFail β} {b : β} :
    (x >>= f) = .ok b ↔ ∃ a, x = .ok a ∧ f a = .ok b := by
  cases x with
  | error e => simp [bind, Except.bind]
  | ok a => simp [bind, Except.bind]

theorem error_bind {α β : Type} {x : Except TomlFail α} {f : α → Except TomlFail β} {e : TomlFail} :
    (x >>= f) = .error e ↔ x = .error e ∨ ∃ a, x = .ok a ∧ f a = .error e := by
  cases x with
  | error e => simp [bind, Except.bind]
  | ok a => simp [bind, Except.bind]

theorem operator_iff (o : Option Str) (op : AssignOp) :
    resolveOperator o = .ok op ↔ (o = none ∧ op = .arrow) ∨ ∃ w, o = some w ∧ Operator w op := by
  cases o with
  | none =>
    simp only [resolveOperator, Except.ok.injEq]
    constructor
    · intro h; exact .inl ⟨trivial, h.symm⟩
    · rintro (⟨_, h⟩ | ⟨w, h, _⟩)
      · exact h.symm
      · cases h
  | some w =>
    simp only [resolveOperator]
    constructor
    · intro h
      refine .inr ⟨w, rfl, ?_⟩
      split at h
      · rename_i hw; cases h; subst hw; exact .arrow
      · split at h
        · rename_i hw; cases h; subst hw; exact .equal
        · cases h
    · rintro (⟨h, _⟩ | ⟨w', h, ho⟩)
      · cases h
      · cases h
        cases ho
        · rfl
        · rfl

/-- The functions of a rule, read and resolved. -/
theorem functions_of {t : TomlTable} {rule name : Str} {o : Option ListOpt} {defaults fs : List Str}
    (ho : Setting (IsListOpt name) t rule o) (h : resolveList rule o defaults = .ok fs) : Functions t rule name defaults fs := by
  rcases ho with ⟨ha, rfl⟩ | ⟨v, a, hv, ⟨s, rfl, hk, hb, he⟩, rfl⟩
  · unfold resolveList at h
    cases h
    refine ⟨[], .inl ⟨ha, rfl⟩, ⟨?_, List.nodup_nil⟩, .inl ⟨?_, ?_, fun f => Iff.rfl⟩⟩
    · intro k v h
      cases h
    · intro v h
      cases h
    · intro v h
      cases h
  · refine ⟨s, .inr hv, hk, ?_⟩
    unfold resolveList at h
    rcases a with ⟨b, e⟩
    simp only [Option.bind_some] at h hb he
    rcases hb with ⟨hb, rfl⟩ | ⟨vb, l1, hbm, hbl, rfl⟩ <;> rcases he with ⟨he, rfl⟩ | ⟨ve, l2, hem, hel, rfl⟩
    · cases h
      exact .inl ⟨hb, he, fun f => Iff.rfl⟩
    · cases h
      exact .inr (.inr ⟨ve, l2, hem, hel, hb, fun f => List.mem_append⟩)
    · cases h
      exact .inr (.inl ⟨vb, fs, hbm, hbl, he, fun f => Iff.rfl⟩)
    · cases h

/-- And back. -/
theorem functions_to {t : TomlTable} {rule name : Str} {defaults fs : List Str} (h : Functions t rule name defaults fs) :
    ∃ o fs', Setting (IsListOpt name) t rule o ∧ resolveList rule o defaults = .ok fs' ∧ ∀ f, f ∈ fs ↔ f ∈ fs' := by
  obtain ⟨s, hs, hk, h⟩ := h
  have put : ∀ o : ListOpt, Setting IsList s name o.base → Setting IsList s (cs! "extend-" ++ name) o.extend → (rule, Toml.table s) ∈ t → Setting (IsListOpt name) t rule (some o) :=
    fun o hb he hm => .inr ⟨_, o, hm, ⟨s, rfl, hk, hb, he⟩, rfl⟩
  rcases hs with ⟨ha, rfl⟩ | hm
  · refine ⟨none, defaults, .inl ⟨ha, rfl⟩, rfl, ?_⟩
    rcases h with ⟨_, _, h⟩ | ⟨v, l, hv, _⟩ | ⟨v, l, hv, _⟩
    · exact h
    · cases hv
    · cases hv
  · rcases h with ⟨h1, h2, h⟩ | ⟨v, l, hv, hl, h2, h⟩ | ⟨v, l, hv, hl, h1, h⟩
    · exact ⟨some ⟨none, none⟩, defaults, put _ (.inl ⟨h1, rfl⟩) (.inl ⟨h2, rfl⟩) hm, rfl, h⟩
    · exact ⟨some ⟨some l, none⟩, l, put _ (.inr ⟨v, l, hv, hl, rfl⟩) (.inl ⟨h2, rfl⟩) hm, rfl, h⟩
    · exact ⟨some ⟨none, some l⟩, defaults ++ l, put _ (.inl ⟨h1, rfl⟩) (.inr ⟨v, l, hv, hl, rfl⟩) hm, rfl,
        fun f => (h f).trans List.mem_append.symm⟩

theorem patterns_iff (isRegex : Str → Bool) (ps qs : List Str) :
    resolvePatterns isRegex ps = .ok qs ↔ qs = ps ∧ ∀ p ∈ ps, isRegex p = true := by
  unfold resolvePatterns
  cases h : ps.find? (fun p => !isRegex p) with
  | some p =>
    simp only [reduceCtorEq, false_iff]
    rintro ⟨_, hp⟩
    have := hp p (List.mem_of_find?_eq_some h)
    have h2 := List.find?_some h
    simp [this] at h2
  | none =>
    simp only [Except.ok.injEq]
    rw [List.find?_eq_none] at h
    constructor
    · rintro rfl
      exact ⟨rfl, fun p hp => by simpa using h p hp⟩
    · rintro ⟨rfl, _⟩; rfl

/-- What `intoSettings` does after the check for unknown keys, as a conjunction. -/
structure Resolved (isRegex : Str → Bool) (l : LinterToml) (s : JarlSettings) : Prop where
  linter : s.linter =
    { select := l.select, extendSelect := l.extendSelect, ignore := l.ignore, fixable := l.fixable, unfixable := l.unfixable }
  incl : s.incl = l.incl
  excl : s.excl = l.excl
  defaultExclude : s.defaultExclude = l.defaultExclude
  assignment : (l.assignment = none ∧ s.assignment = .arrow ∧ s.deprecatedAssignment = false) ∨
    (∃ w, l.assignment = some (.legacy w) ∧ resolveOperator (some w) = .ok s.assignment ∧ s.deprecatedAssignment = true) ∨
    (∃ op, l.assignment = some (.options op) ∧ resolveOperator op = .ok s.assignment ∧ s.deprecatedAssignment = false)
  dup : resolveList (cs! "duplicated_arguments") l.dup dupArgsDefaults = .ok s.dupSkipped
  implicit : resolveList (cs! "implicit_assignment") l.implicit implicitDefaults = .ok s.implicitSkipped
  undesirable : resolveList (cs! "undesirable_function") l.undesirable undesirableDefaults = .ok s.undesirable
  stopping : resolveList (cs! "unreachable_code") l.unreachable defaultStopping = .ok s.stopping
  threshold : s.threshold = (l.unused.bind (·.threshold)).getD 50
  skipped : resolvePatterns isRegex ((l.unused.bind (·.skipped)).getD []) = .ok s.skipped

theorem intoSettings_iff {env : TomlEnv} (hf : Fair env.first) (o : Option LinterToml) (s : JarlSettings) :
    intoSettings env o = .ok s ↔ (o.getD {}).unknown = [] ∧ Resolved env.isRegex (o.getD {}) s := by
  unfold intoSettings
  generalize o.getD {} = l
  cases hfirst : env.first l.unknown with
  | some k =>
    simp only [hfirst, reduceCtorEq, false_iff]
    rintro ⟨h, _⟩
    have := (hf l.unknown).1 k hfirst
    rw [h] at this
    cases this
  | none =>
    have hu := (hf l.unknown).2 hfirst
    simp only [hfirst, ok_bind]
    rw [and_iff_right hu]
    constructor
    · rintro ⟨op, h1, dup, h2, imp, h3, und, h4, st, h5, sk, h6, h⟩
      cases h
      refine ⟨rfl, rfl, rfl, rfl, ?_, h2, h3, h4, h5, rfl, h6⟩
      rcases hl : l.assignment with _ | (w | op)
      · rw [hl] at h1
        cases h1
        exact .inl ⟨rfl, rfl, rfl⟩
      · rw [hl] at h1
        exact .inr (.inl ⟨w, rfl, h1, rfl⟩)
      · rw [hl] at h1
        exact .inr (.inr ⟨op, rfl, h1, rfl⟩)
    · intro h
      refine ⟨s.assignment, ?_, _, h.dup, _, h.implicit, _, h.undesirable, _, h.stopping, _, h.skipped, ?_⟩
      · rcases h.assignment with ⟨h1, h2, _⟩ | ⟨w, h1, h2, _⟩ | ⟨op, h1, h2, _⟩
        · rw [h1, h2]; rfl
        · rw [h1]; exact h2
        · rw [h1]; exact h2
      · rw [← h.linter, ← h.incl, ← h.excl, ← h.defaultExclude, ← h.threshold]
        rcases h.assignment with ⟨h1, _, h2⟩ | ⟨w, h1, _, h2⟩ | ⟨op, h1, _, h2⟩ <;> (rw [h1]; simp only []; rw [← h2])

theorem lintRead_nil : LintRead [] {} :=
  ⟨rfl, rfl, rfl, rfl, rfl, rfl, rfl, rfl, rfl, rfl, rfl, rfl, rfl, rfl, rfl, rfl⟩

theorem reads_lint : Reads asLint (fun v l => ∃ t, v = .table t ∧ LintRead t l) := by
  intro v l
  cases v with
  | table t => simp [asLint_iff]
  | _ => simp [asLint]

theorem lintRead_unique {t : TomlTable} {l l' : LinterToml} (h : LintRead t l) (h' : LintRead t l') : l = l' :=
  Option.some.inj (((asLint_iff t l).2 h).symm.trans ((asLint_iff t l').2 h'))

theorem asOptions_of {doc : TomlTable} {o : Option LinterToml} (h : asOptions doc = some o) :
    Keys [cs! "lint"] doc ∧ ∃ t, Sub doc (cs! "lint") t ∧ LintRead t (o.getD {}) := by
  unfold asOptions at h
  obtain ⟨hk, h⟩ := guard_iff.1 h
  have hk := (known_iff _ _).1 hk
  refine ⟨hk, ?_⟩
  rcases (optional_iff reads_lint hk.2 _ _).1 h with ⟨ha, rfl⟩ | ⟨v, l, hv, ⟨t, rfl, hl⟩, rfl⟩
  · exact ⟨[], .inl ⟨ha, rfl⟩, lintRead_nil⟩
  · exact ⟨t, .inr hv, hl⟩

theorem asOptions_to {doc t : TomlTable} {l : LinterToml} (hk : Keys [cs! "lint"] doc) (hs : Sub doc (cs! "lint") t) (hl : LintRead t l) :
    ∃ o, asOptions doc = some o ∧ o.getD {} = l := by
  unfold asOptions
  rcases hs with ⟨ha, rfl⟩ | hm
  · exact ⟨none, guard_iff.2 ⟨(known_iff _ _).2 hk, (optional_iff reads_lint hk.2 _ _).2 (.inl ⟨ha, rfl⟩)⟩, lintRead_unique lintRead_nil hl⟩
  · exact ⟨some l, guard_iff.2 ⟨(known_iff _ _).2 hk, (optional_iff reads_lint hk.2 _ _).2 (.inr ⟨_, l, hm, ⟨t, rfl, hl⟩, rfl⟩)⟩, rfl⟩

/-- From what was read and resolved to the meaning. -/
theorem lintMeans_of {isRegex : Str → Bool} {t : TomlTable} {l : LinterToml} {s : JarlSettings} (hk : Keys documentedKeys t)
    (h : IsLint t l) (r : Resolved isRegex l s) : LintMeans isRegex t s := by
  have hl := r.linter
  refine ⟨hk, ?_, ?_, ?_, ?_, ?_, ?_, ?_, ?_, ?_, functions_of h.dup r.dup, functions_of h.implicit r.implicit,
    functions_of h.undesirable r.undesirable, functions_of h.unreachable r.stopping, ?_⟩
  · rw [hl]; exact h.select
  · rw [hl]; exact h.extendSelect
  · rw [hl]; exact h.ignore
  · rw [hl]; exact h.fixable
  · rw [hl]; exact h.unfixable
  · rw [r.incl]; exact h.incl
  · rw [r.excl]; exact h.excl
  · rw [r.defaultExclude]; exact h.defaultExclude
  · unfold Assignment
    rcases h.assignment with ⟨ha, hn⟩ | ⟨v, a, hv, hva, hn⟩ <;>
      rcases r.assignment with ⟨h1, h2, h3⟩ | ⟨w, h1, h2, h3⟩ | ⟨op, h1, h2, h3⟩ <;> rw [hn] at h1 <;> cases h1
    · exact .inl ⟨ha, h2, h3⟩
    · rcases (operator_iff _ _).1 h2 with ⟨h, _⟩ | ⟨w', h, ho⟩
      · cases h
      · cases h
        cases hva
        exact .inr (.inl ⟨w, hv, ho, h3⟩)
    · obtain ⟨s', rfl, hk', hop⟩ := hva
      refine .inr (.inr ⟨s', hv, hk', h3, ?_⟩)
      rcases (operator_iff _ _).1 h2 with ⟨rfl, ho⟩ | ⟨w', rfl, ho⟩
      · rcases hop with ⟨ha, _⟩ | ⟨_, _, _, _, h⟩
        · exact .inl ⟨ha, ho⟩
        · cases h
      · rcases hop with ⟨_, h⟩ | ⟨v', w, hw, rfl, h⟩
        · cases h
        · cases h
          exact .inr ⟨w', hw, ho⟩
  · obtain ⟨hs, hp⟩ := (patterns_iff _ _ _).1 r.skipped
    have ht := r.threshold
    rcases h.unused with ⟨ha, hn⟩ | ⟨v, a, hv, ⟨s', rfl, hk', hn', hps⟩, hn⟩
    · rw [hn] at ht hs hp
      refine ⟨[], none, none, .inl ⟨ha, rfl⟩, ⟨?_, List.nodup_nil⟩, .inl ⟨?_, rfl⟩, ht, .inl ⟨?_, rfl⟩, hs, ?_⟩
      · intro k v h
        cases h
      · intro v h
        cases h
      · intro v h
        cases h
      · rw [hs]; exact hp
    · rw [hn] at ht hs hp
      refine ⟨s', a.threshold, a.skipped, .inr hv, hk', hn', ht, hps, hs, ?_⟩
      rw [hs]; exact hp

/-- And back. -/
theorem lintMeans_to {isRegex : Str → Bool} {t : TomlTable} {s : JarlSettings} (h : LintMeans isRegex t s) :
    ∃ l s', IsLint t l ∧ l.unknown = [] ∧ Resolved isRegex l s' ∧ SameSettings s s' := by
  obtain ⟨o1, f1, hd1, hr1, hs1⟩ := functions_to h.dup
  obtain ⟨o2, f2, hd2, hr2, hs2⟩ := functions_to h.implicit
  obtain ⟨o3, f3, hd3, hr3, hs3⟩ := functions_to h.undesirable
  obtain ⟨o4, f4, hd4, hr4, hs4⟩ := functions_to h.unreachable
  have hu : ∃ u : Option UnusedOpt, Setting IsUnused t (cs! "unused_function") u ∧ s.threshold = (u.bind (·.threshold)).getD 50 ∧
      s.skipped = (u.bind (·.skipped)).getD [] := by
    obtain ⟨s', n, ps, hsub, hk, hn, ht, hp, hsk, _⟩ := h.unused
    rcases hsub with ⟨ha, rfl⟩ | hm
    · refine ⟨none, .inl ⟨ha, rfl⟩, ?_, ?_⟩
      · rcases hn with ⟨_, rfl⟩ | ⟨_, _, hv, _⟩
        · exact ht
        · cases hv
      · rcases hp with ⟨_, rfl⟩ | ⟨_, _, hv, _⟩
        · exact hsk
        · cases hv
    · exact ⟨some ⟨n, ps⟩, .inr ⟨_, _, hm, ⟨s', rfl, hk, hn, hp⟩, rfl⟩, ht, hsk⟩
  obtain ⟨u, hu, ht, hsk⟩ := hu
  have hreg : ∀ p ∈ s.skipped, isRegex p = true := by
    obtain ⟨_, _, _, _, _, _, _, _, _, h⟩ := h.unused
    exact h
  have ha : ∃ c : Option AssignConf, Setting IsAssign t (cs! "assignment") c ∧
      ((c = none ∧ s.assignment = .arrow ∧ s.deprecatedAssignment = false) ∨
       (∃ w, c = some (.legacy w) ∧ resolveOperator (some w) = .ok s.assignment ∧ s.deprecatedAssignment = true) ∨
       (∃ op, c = some (.options op) ∧ resolveOperator op = .ok s.assignment ∧ s.deprecatedAssignment = false)) := by
    rcases h.assignment with ⟨ha, h1, h2⟩ | ⟨w, hm, ho, h2⟩ | ⟨s', hm, hk, h2, ho⟩
    · exact ⟨none, .inl ⟨ha, rfl⟩, .inl ⟨rfl, h1, h2⟩⟩
    · exact ⟨some (.legacy w), .inr ⟨_, .legacy w, hm, rfl, rfl⟩, .inr (.inl ⟨w, rfl, (operator_iff _ _).2 (.inr ⟨w, rfl, ho⟩), h2⟩)⟩
    · rcases ho with ⟨ha, ho⟩ | ⟨w, hw, ho⟩
      · exact ⟨some (.options none), .inr ⟨_, .options none, hm, ⟨s', rfl, hk, .inl ⟨ha, rfl⟩⟩, rfl⟩,
          .inr (.inr ⟨none, rfl, (operator_iff _ _).2 (.inl ⟨rfl, ho⟩), h2⟩)⟩
      · exact ⟨some (.options (some w)), .inr ⟨_, .options (some w), hm, ⟨s', rfl, hk, .inr ⟨_, w, hw, rfl, rfl⟩⟩, rfl⟩,
          .inr (.inr ⟨some w, rfl, (operator_iff _ _).2 (.inr ⟨w, rfl, ho⟩), h2⟩)⟩
  obtain ⟨c, hc, hca⟩ := ha
  refine ⟨{ select := s.linter.select, extendSelect := s.linter.extendSelect, ignore := s.linter.ignore, fixable := s.linter.fixable,
            unfixable := s.linter.unfixable, incl := s.incl, excl := s.excl, defaultExclude := s.defaultExclude, assignment := c,
            dup := o1, implicit := o2, undesirable := o3, unreachable := o4, unused := u },
          { s with dupSkipped := f1, implicitSkipped := f2, undesirable := f3, stopping := f4 },
          ⟨h.select, h.extendSelect, h.ignore, h.fixable, h.unfixable, h.incl, h.excl, h.defaultExclude, hc, hd1, hd2, hd3, hd4, hu⟩, rfl,
          ⟨rfl, rfl, rfl, rfl, hca, hr1, hr2, hr3, hr4, ht, (patterns_iff _ _ _).2 ⟨hsk, hsk ▸ hreg⟩⟩,
          ⟨rfl, rfl, rfl, rfl, rfl, rfl, hs1, hs2, hs3, hs4, rfl, rfl⟩⟩

/-! ## The claims -/

/-- **C65.** The settings that come out of a configuration file are those it asks for. -/
theorem C65_settings {env : TomlEnv} (hf : Fair env.first) {doc : TomlTable} {s : JarlSettings}
    (h : parseSettings env (.doc doc) = .ok s) : Means env.isRegex doc s := by
  simp only [parseSettings] at h
  cases ho : asOptions doc with
  | none => rw [ho] at h; cases h
  | some o =>
    rw [ho] at h
    obtain ⟨hu, r⟩ := (intoSettings_iff hf o s).1 h
    obtain ⟨hk, t, hs, hl⟩ := asOptions_of ho
    obtain ⟨hk', hi, _⟩ := (lintRead_iff t _).1 ⟨hl, hu⟩
    exact ⟨hk, t, hs, lintMeans_of hk' hi r⟩

/-- **C65.** A configuration file that asks for some settings is accepted, and gives them. -/
theorem C65_accepted {env : TomlEnv} (hf : Fair env.first) {doc : TomlTable} {s : JarlSettings} (h : Means env.isRegex doc s) :
    ∃ s', parseSettings env (.doc doc) = .ok s' ∧ SameSettings s s' := by
  obtain ⟨hk, t, hs, hm⟩ := h
  obtain ⟨l, s', hi, hu, r, same⟩ := lintMeans_to hm
  obtain ⟨hl, _⟩ := (lintRead_iff t l).2 ⟨hm.keys, hi, hu⟩
  obtain ⟨o, ho, hol⟩ := asOptions_to hk hs hl
  refine ⟨s', ?_, same⟩
  simp only [parseSettings, ho]
  exact (intoSettings_iff hf o s').2 (hol ▸ ⟨hu, r⟩)

theorem list_error {rule : Str} {o : Option ListOpt} {d : List Str} {e : TomlFail} (h : resolveList rule o d = .error e) :
    e = .both rule ∧ ∃ b x, o = some ⟨some b, some x⟩ := by
  unfold resolveList at h
  rcases o with _ | ⟨_ | b, _ | x⟩
  · cases h
  · cases h
  · cases h
  · cases h
  · cases h
    exact ⟨rfl, b, x, rfl⟩

theorem both_justified {t : TomlTable} {rule name : Str} {o : Option ListOpt} {b x : List Str} (h : Setting (IsListOpt name) t rule o)
    (ho : o = some ⟨some b, some x⟩) : ∃ s v w, (rule, Toml.table s) ∈ t ∧ (name, v) ∈ s ∧ (cs! "extend-" ++ name, w) ∈ s := by
  rcases h with ⟨_, h⟩ | ⟨v, a, hv, ⟨s, rfl, _, hb, he⟩, h⟩
  · rw [ho] at h; cases h
  · rw [ho] at h; cases h
    rcases hb with ⟨_, hb⟩ | ⟨vb, _, hbm, _⟩
    · cases hb
    · rcases he with ⟨_, he⟩ | ⟨ve, _, hem, _⟩
      · cases he
      · exact ⟨s, vb, ve, hv, hbm, hem⟩

theorem operator_error {o : Option Str} {e : TomlFail} (h : resolveOperator o = .error e) :
    ∃ w, o = some w ∧ e = .operator w ∧ w ≠ cs! "<-" ∧ w ≠ cs! "=" := by
  cases o with
  | none => cases h
  | some w =>
    simp only [resolveOperator] at h
    split at h
    · cases h
    · split at h
      · cases h
      · rename_i h1 h2
        cases h
        exact ⟨w, rfl, rfl, h1, h2⟩

theorem patterns_error {isRegex : Str → Bool} {ps : List Str} {e : TomlFail} (h : resolvePatterns isRegex ps = .error e) :
    ∃ p ∈ ps, e = .regex p ∧ isRegex p = false := by
  unfold resolvePatterns at h
  split at h
  · rename_i p hp
    cases h
    exact ⟨p, List.mem_of_find?_eq_some hp, rfl, by simpa using List.find?_some hp⟩
  · cases h

/-- **C65.** Every other configuration file is refused, and what the refusal says is true. -/
theorem C65_refused {env : TomlEnv} (hf : Fair env.first) {doc : TomlTable} {e : TomlFail}
    (h : parseSettings env (.doc doc) = .error e) : Justified env.isRegex doc e ∧ ¬ ∃ s, Means env.isRegex doc s := by
  have hno : ¬ ∃ s, Means env.isRegex doc s := by
    rintro ⟨s, hs⟩
    obtain ⟨s', h', _⟩ := C65_accepted hf hs
    rw [h] at h'
    cases h'
  refine ⟨?_, hno⟩
  simp only [parseSettings] at h
  cases ho : asOptions doc with
  | none => rw [ho] at h; cases h; exact hno
  | some o =>
    rw [ho] at h
    simp only at h
    obtain ⟨hk, t, hs, hl⟩ := asOptions_of ho
    unfold intoSettings at h
    generalize o.getD {} = l at h hl
    have there : ∀ {k v}, (k, v) ∈ t → (cs! "lint", Toml.table t) ∈ doc := by
      intro k v hv
      rcases hs with ⟨_, rfl⟩ | hm
      · cases hv
      · exact hm
    cases hfirst : env.first l.unknown with
    | some k =>
      simp only [hfirst] at h
      cases h
      have hmem := (hf l.unknown).1 k hfirst
      rw [hl.unknown, List.mem_filter] at hmem
      obtain ⟨⟨k', v⟩, hkv, rfl⟩ := List.mem_map.1 hmem.1
      refine ⟨t, v, there hkv, hkv, ?_⟩
      have h2 := hmem.2
      show k' ∉ lintKeys
      simpa using h2
    | none =>
      have hu := (hf l.unknown).2 hfirst
      obtain ⟨hk', hi, _⟩ := (lintRead_iff t l).1 ⟨hl, hu⟩
      simp only [hfirst, error_bind] at h
      have both : ∀ {rule name o d}, Setting (IsListOpt name) t rule o → resolveList rule o d = .error e → Justified env.isRegex doc e := by
        intro rule name o d h1 h2
        obtain ⟨rfl, b, x, ho⟩ := list_error h2
        obtain ⟨s, v, w, h3, h4, h5⟩ := both_justified h1 ho
        exact ⟨t, s, name, v, w, there h3, h3, h4, h5⟩
      rcases h with h | ⟨_, _, h | ⟨_, _, h | ⟨_, _, h | ⟨_, _, h | ⟨_, _, h | ⟨_, _, h⟩⟩⟩⟩⟩⟩
      · obtain ⟨w, hw, rfl, h1, h2⟩ := operator_error h
        refine ⟨?_, h1, h2⟩
        rcases hi.assignment with ⟨_, hn⟩ | ⟨v, a, hv, hva, hn⟩
        · rw [hn] at hw; cases hw
        · rw [hn] at hw
          cases a with
          | legacy w' =>
            cases hw
            cases hva
            exact ⟨t, there hv, .inl hv⟩
          | options op =>
            cases hw
            obtain ⟨s, rfl, _, hop⟩ := hva
            rcases hop with ⟨_, hop⟩ | ⟨v', w', hw', rfl, hop⟩
            · cases hop
            · cases hop
              exact ⟨t, there hv, .inr ⟨s, hv, hw'⟩⟩
      · exact both hi.dup h
      · exact both hi.implicit h
      · exact both hi.undesirable h
      · exact both hi.unreachable h
      · obtain ⟨p, hp, rfl, hr⟩ := patterns_error h
        rcases hi.unused with ⟨_, hn⟩ | ⟨v, a, hv, ⟨s, rfl, _, _, hps⟩, hn⟩
        · rw [hn] at hp; cases hp
        · rw [hn] at hp
          rcases hps with ⟨_, hps⟩ | ⟨v', l', hv', rfl, hps⟩
          · simp only [Option.bind_some, hps] at hp
            cases hp
          · simp only [Option.bind_some, hps, Option.getD_some] at hp
            exact ⟨t, s, l', there hv, hv, hv', hp, hr⟩
      · cases h

/-- **C65.** An empty configuration file is like none. -/
theorem C65_empty {env : TomlEnv} (hf : Fair env.first) : parseSettings env (.doc []) = .ok defaultSettings := by
  have h1 : env.first [] = none := by
    cases h : env.first [] with
    | none => rfl
    | some k => cases (hf []).1 k h
  show intoSettings env none = _
  unfold intoSettings
  simp only [Option.getD_none, h1]
  rfl

/-- **C65.** A function is left alone by `unused_function` exactly when one of the patterns of the file matches its name. -/
theorem C65_skipped {env : TomlEnv} (hf : Fair env.first) {doc : TomlTable} {s : JarlSettings} (h : parseSettings env (.doc doc) = .ok s)
    (isMatch : Str → Str → Bool) (name : Str) :
    isSkipped isMatch s name = true ↔ ∃ t u, ∃ ps : List Str, (cs! "lint", .table t) ∈ doc ∧ (cs! "unused_function", .table u) ∈ t ∧
      (cs! "skipped-functions", .array (ps.map .str)) ∈ u ∧ ∃ p ∈ ps, isMatch p name = true := by
  obtain ⟨hk, t, hsub, hm⟩ := C65_settings hf h
  obtain ⟨u, n, ps, hu, hku, _, _, hps, hsk, _⟩ := hm.unused
  unfold isSkipped
  rw [List.any_eq_true, hsk]
  constructor
  · rintro ⟨p, hp, hpm⟩
    rcases hps with ⟨_, rfl⟩ | ⟨v, l, hv, rfl, rfl⟩
    · cases hp
    · rcases hu with ⟨_, rfl⟩ | hu
      · cases hv
      · rcases hsub with ⟨_, rfl⟩ | hsub
        · cases hu
        · exact ⟨t, u, l, hsub, hu, hv, p, hp, hpm⟩
  · rintro ⟨t', u', l, ht, hut, hul, p, hp, hpm⟩
    have same : ∀ {ks : List Str} {t : TomlTable} {k v w}, Keys ks t → (k, v) ∈ t → (k, w) ∈ t → v = w := by
      intro ks t k v w hk hv hw
      have h1 := field_of_mem hk.2 hv
      rw [field_of_mem hk.2 hw] at h1
      exact (Option.some.inj h1).symm
    rcases hsub with ⟨ha, _⟩ | hsub
    · exact absurd ht (ha _)
    · cases same hk hsub ht
      rcases hu with ⟨ha, _⟩ | hu
      · exact absurd hut (ha _)
      · cases same hm.keys hu hut
        rcases hps with ⟨ha, _⟩ | ⟨v, l', hv, rfl, rfl⟩
        · exact absurd hul (ha _)
        · have := same hku hv hul
          injection this with this
          have hl : l' = l := (List.map_inj_right (fun a b h => by cases h; rfl)).1 this
          exact ⟨p, hl ▸ hp, hpm⟩

/-- **C65.** The visible file comes before the hidden one, and no other name is looked at. -/
theorem C65_file (isFile : Str → Bool) (n : Str) :
    configName isFile = some n ↔ (n = cs! "jarl.toml" ∧ isFile n = true) ∨
      (n = cs! ".jarl.toml" ∧ isFile n = true ∧ isFile (cs! "jarl.toml") = false) := by
  unfold configName
  split
  · rename_i h
    constructor
    · intro h'; cases h'; exact .inl ⟨rfl, h⟩
    · rintro (⟨rfl, _⟩ | ⟨rfl, _, h'⟩)
      · rfl
      · rw [h] at h'; cases h'
  · rename_i h
    split
    · rename_i h2
      constructor
      · intro h'; cases h'; exact .inr ⟨rfl, h2, by simpa using h⟩
      · rintro (⟨rfl, h'⟩ | ⟨rfl, _⟩)
        · exact absurd h' h
        · rfl
    · rename_i h2
      constructor
      · intro h'; cases h'
      · rintro (⟨rfl, h'⟩ | ⟨rfl, h', _⟩)
        · exact absurd h' h
        · exact absurd h' h2

/-- **C65 fails**: a file that is there but cannot be read as text is not refused with a message, jarl crashes. -/
theorem C65_false_unreadable (env : TomlEnv) : parseSettings env .unreadable = .error .panic := rfl

/-! ## Example -/

/-- ```toml
[lint]
select = ["any_is_na", "SUSP"]
default-exclude = false
assignment = "="
[lint.unreachable_code]
extend-stopping-functions = ["die"]
[lint.unused_function]
threshold-ignore = 3
skipped-functions = ["^on_"]
``` -/
def exampleToml : TomlTable :=
  [(cs! "lint", .table
    [(cs! "select", .array [.str (cs! "any_is_na"), .str (cs! "SUSP")]), (cs! "default-exclude", .bool false), (cs! "assignment", .str (cs! "=")),
     (cs! "unreachable_code", .table [(cs! "extend-stopping-functions", .array [.str (cs! "die")])]),
     (cs! "unused_function", .table [(cs! "threshold-ignore", .int 3), (cs! "skipped-functions", .array [.str (cs! "^on_")])])])]

/-- Any text is a regular expression; the first key comes first. -/
def exampleTomlEnv : TomlEnv := ⟨fun _ => true, List.head?⟩

theorem fair_head : Fair List.head? := by
  intro l
  cases l with
  | nil => exact ⟨fun k h => (by cases h), fun _ => rfl⟩
  | cons a l => exact ⟨fun k h => (by cases h; exact List.mem_cons_self), fun h => (by cases h)⟩

example : parseSettings exampleTomlEnv (.doc exampleToml) =
    .ok { defaultSettings with linter := { select := some [cs! "any_is_na", cs! "SUSP"] }, defaultExclude := some false,
                               deprecatedAssignment := true, assignment := .equal,
                               stopping := defaultStopping ++ [cs! "die"], threshold := 3, skipped := [cs! "^on_"] } := rfl

example : ∃ s, Means (fun _ => true) exampleToml s := ⟨_, C65_settings (env := exampleTomlEnv) fair_head (s := _) rfl⟩

example : parseSettings exampleTomlEnv (.doc [(cs! "lint", .table [(cs! "slect", .array [])])]) = .error (.unknownField (cs! "slect")) := rfl
example : parseSettings exampleTomlEnv (.doc [(cs! "lnt", .table [])]) = .error .parse := rfl
example : parseSettings exampleTomlEnv (.doc [(cs! "lint", .table [(cs! "undesirable_function", .table
    [(cs! "functions", .array []), (cs! "extend-functions", .array [])])])]) = .error (.both (cs! "undesirable_function")) := rfl
example : parseSettings exampleTomlEnv (.doc [(cs! "lint", .table [(cs! "assignment", .str (cs! "<<-"))])]) =
    .error (.operator (cs! "<<-")) := rfl

end Jarl

import Verif.Lemmas.Cli
import Verif.Props.LintFix
import Verif.Props.SuppressionEdit
/-!
# C27 (order of the report), C28 (exit code), C29 (hidden diagnostics), C30 (statistics)
-/
namespace Jarl
open Spec

/-! ### Collected diagnostics -/

theorem flatMap_allDiagnostics (rs : FileResults) : (allDiagnostics rs).flatMap (·.2) = found rs := by
  unfold allDiagnostics found
  induction rs with
  | nil => rfl
  | cons r rs ih =>
    obtain ⟨p, res⟩ := r
    cases res with
    | error e => simpa [List.filterMap_cons] using ih
    | ok ds =>
      by_cases h : ds.isEmpty
      · have : ds = [] := by simpa using h
        subst this
        simpa [List.filterMap_cons] using ih
      · simp only [List.filterMap_cons, h, Bool.false_eq_true, if_false, List.flatMap_cons]
        rw [ih]

theorem mem_found {rs : FileResults} {d : Diagnostic} : d ∈ found rs ↔ Found rs d := by
  unfold found Found
  simp only [List.mem_flatMap]
  constructor
  · rintro ⟨⟨p, res⟩, h1, h2⟩
    cases res with
    | error e => simp at h2
    | ok ds => exact ⟨p, ds, h1, h2⟩
  · rintro ⟨p, ds, h1, h2⟩
    exact ⟨(p, .ok ds), h1, h2⟩

theorem allErrors_isEmpty (rs : FileResults) : (allErrors rs).isEmpty = false ↔ ∃ r ∈ rs, Failed r := by
  unfold allErrors Failed
  rw [← Bool.not_eq_true, List.isEmpty_iff, List.filterMap_eq_nil_iff]
  constructor
  · intro h
    apply Classical.byContradiction
    intro hn
    apply h
    intro r hr
    cases hres : r.2 with
    | ok ds => rfl
    | error e => exact absurd ⟨r, hr, e, hres⟩ hn
  · rintro ⟨r, hr, e, he⟩ h
    have := h r hr
    rw [he] at this
    cases this

/-- What is left of a list of diagnostics. -/
theorem flatMap_hideUnused (args : CheckArgs) (items : List ResolvedItem) (all : List (Str × List Diagnostic)) :
    (hideUnused args items all).flatMap (·.2) =
      if unusedHidden args items all then (all.flatMap (·.2)).filter (fun d => d.name ≠ cs! "unused_function")
      else all.flatMap (·.2) := by
  unfold hideUnused
  split
  · rename_i hh
    clear hh
    induction all with
    | nil => rfl
    | cons x xs ih =>
      simp only [List.map_cons, List.flatMap_cons, List.filter_append]
      rw [← ih, List.filter_cons]
      split
      · simp only [List.flatMap_cons]
        rfl
      · rename_i h
        simp only [Bool.not_eq_true, Bool.not_eq_false', List.isEmpty_iff] at h
        have : x.2.filter (fun d => decide (d.name ≠ cs! "unused_function")) = [] := h
        rw [this, List.nil_append]
  · rfl

theorem hideUnused_nonempty {args : CheckArgs} {items : List ResolvedItem} {rs : FileResults} :
    (hideUnused args items (allDiagnostics rs)).isEmpty =
      ((hideUnused args items (allDiagnostics rs)).flatMap (·.2)).isEmpty := by
  have hne : ∀ x ∈ hideUnused args items (allDiagnostics rs), x.2 ≠ [] := by
    have h0 : ∀ x ∈ allDiagnostics rs, x.2 ≠ [] := by
      intro x hx
      obtain ⟨r, _, hr⟩ := List.mem_filterMap.mp hx
      cases hres : r.2 with
      | error e => rw [hres] at hr; cases hr
      | ok ds =>
        rw [hres] at hr
        simp only at hr
        split at hr
        · cases hr
        · rename_i h
          cases hr
          simpa using h
    unfold hideUnused
    split
    · intro x hx
      have := (List.mem_filter.mp hx).2
      simpa using this
    · exact h0
  generalize hideUnused args items (allDiagnostics rs) = l at hne
  cases l with
  | nil => rfl
  | cons x xs =>
    have := hne x List.mem_cons_self
    cases hx : x.2 with
    | nil => exact absurd hx this
    | cons a as => simp [hx]

/-! ### C29 -/

theorem explicitlySelected_iff (args : CheckArgs) (items : List ResolvedItem) :
    explicitlySelected args items = true ↔ NamedExplicitly args items := by
  unfold explicitlySelected NamedExplicitly
  have hname : unusedFunctionName = cs! "unused_function" := rfl
  rw [hname, Bool.or_eq_true, List.any_eq_true, List.any_eq_true]
  constructor
  · rintro (⟨s, hs, h⟩ | ⟨i, hi, h⟩)
    · exact .inl ⟨s, List.mem_append.mp hs, of_decide_eq_true h⟩
    · right
      obtain ⟨s, hs, h⟩ := List.any_eq_true.mp h
      have h := of_decide_eq_true h
      subst h
      rcases List.mem_append.mp hs with hs | hs
      · cases hl : i.linter.select with
        | none => rw [hl] at hs; simp at hs
        | some l => rw [hl] at hs; exact ⟨i, hi, l, .inl hl, by simpa using hs⟩
      · cases hl : i.linter.extendSelect with
        | none => rw [hl] at hs; simp at hs
        | some l => rw [hl] at hs; exact ⟨i, hi, l, .inr hl, by simpa using hs⟩
  · rintro (⟨s, hs, h⟩ | ⟨i, hi, l, hl, h⟩)
    · exact .inl ⟨s, List.mem_append.mpr hs, by simp [h]⟩
    · right
      refine ⟨i, hi, List.any_eq_true.mpr ⟨_, ?_, decide_eq_true rfl⟩⟩
      rcases hl with hl | hl
      · exact List.mem_append.mpr (.inl (by simpa [hl] using h))
      · exact List.mem_append.mpr (.inr (by simpa [hl] using h))

theorem foldl_min_spec : ∀ (l : List Nat) (t : Nat),
    (l.foldl Nat.min t = t ∨ l.foldl Nat.min t ∈ l) ∧ l.foldl Nat.min t ≤ t ∧ ∀ x ∈ l, l.foldl Nat.min t ≤ x
  | [], t => by simp
  | a :: l, t => by
    obtain ⟨h1, h2, h3⟩ := foldl_min_spec l (Nat.min t a)
    have hle1 : Nat.min t a ≤ t := Nat.min_le_left t a
    have hle2 : Nat.min t a ≤ a := Nat.min_le_right t a
    refine ⟨?_, by simp only [List.foldl_cons]; omega, ?_⟩
    · simp only [List.foldl_cons]
      rcases h1 with h1 | h1
      · rw [h1]
        have : Nat.min t a = t ∨ Nat.min t a = a := by
          show min t a = t ∨ min t a = a
          omega
        rcases this with h | h
        · exact .inl h
        · exact .inr (by simp [h])
      · exact .inr (List.mem_cons_of_mem _ h1)
    · intro x hx
      simp only [List.foldl_cons]
      rcases List.mem_cons.mp hx with rfl | hx
      · omega
      · exact h3 x hx

theorem thresholdIgnore_spec (items : List ResolvedItem) : Threshold items (thresholdIgnore items) := by
  unfold thresholdIgnore Threshold
  cases items with
  | nil => exact .inl ⟨rfl, rfl⟩
  | cons i is =>
    right
    simp only [List.map_cons]
    obtain ⟨h1, h2, h3⟩ := foldl_min_spec (is.map (·.threshold)) i.threshold
    refine ⟨?_, ?_⟩
    · rcases h1 with h1 | h1
      · exact ⟨i, List.mem_cons_self, h1.symm⟩
      · obtain ⟨j, hj, hjt⟩ := List.mem_map.mp h1
        exact ⟨j, List.mem_cons_of_mem _ hj, hjt⟩
    · intro j hj
      rcases List.mem_cons.mp hj with rfl | hj
      · exact h2
      · exact h3 _ (List.mem_map.mpr ⟨j, hj, rfl⟩)

theorem Threshold_unique {items : List ResolvedItem} {t t' : Nat} (h : Threshold items t) (h' : Threshold items t') : t = t' := by
  rcases h with ⟨h, rfl⟩ | ⟨⟨i, hi, rfl⟩, h⟩
  · rcases h' with ⟨_, rfl⟩ | ⟨⟨i, hi, rfl⟩, _⟩
    · rfl
    · subst h; simp at hi
  · rcases h' with ⟨h', rfl⟩ | ⟨⟨j, hj, rfl⟩, h'⟩
    · subst h'; simp at hi
    · exact Nat.le_antisymm (h j hj) (h' i hi)

/-- **C29.** Without `--statistics` and `--add-jarl-ignore`, the report holds every diagnostic found, as often as it was
found, except that all `unused_function` diagnostics are left out when the rule is not named explicitly and there are more
of them than the threshold. -/
theorem C29_hidden_all_or_none {args : CheckArgs} {items : List ResolvedItem} {rs : FileResults} {t : Nat} {o : CliOut}
    (hs : args.statistics = false) (ha : args.addJarlIgnore = none) (ht : Threshold items t)
    (h : cliReport args items rs = .ok o) :
    (¬ NamedExplicitly args items ∧ t < countOf (cs! "unused_function") (found rs) →
      o.diagnostics.Perm ((found rs).filter (fun d => d.name ≠ cs! "unused_function"))) ∧
    (NamedExplicitly args items ∨ countOf (cs! "unused_function") (found rs) ≤ t → o.diagnostics.Perm (found rs)) := by
  unfold cliReport at h
  simp only [ha, hs, Bool.false_eq_true, if_false, Except.ok.injEq] at h
  subst h
  simp only
  have hperm : (flatSorted (hideUnused args items (allDiagnostics rs))).Perm
    ((hideUnused args items (allDiagnostics rs)).flatMap (·.2)) := List.mergeSort_perm _ _
  have ht' := Threshold_unique ht (thresholdIgnore_spec items)
  have hcount : unusedCount (allDiagnostics rs) = countOf (cs! "unused_function") (found rs) := by
    unfold unusedCount countOf
    rw [flatMap_allDiagnostics]
    rfl
  have hid : unusedHidden args items (allDiagnostics rs) = true ↔
      ¬ NamedExplicitly args items ∧ t < countOf (cs! "unused_function") (found rs) := by
    unfold unusedHidden
    rw [Bool.and_eq_true, Bool.not_eq_true', ← Bool.not_eq_true, explicitlySelected_iff, decide_eq_true_iff, hcount, ht']
  rw [flatMap_hideUnused, flatMap_allDiagnostics] at hperm
  refine ⟨fun hh => ?_, fun hh => ?_⟩
  · rw [if_pos (hid.mpr hh)] at hperm
    exact hperm
  · rw [if_neg (fun hc => ?_)] at hperm
    · exact hperm
    · obtain ⟨h1, h2⟩ := hid.mp hc
      rcases hh with hh | hh
      · exact h1 hh
      · omega

/-! ### C27 -/

/-- **C27 (sorted).** The diagnostics are printed file by file and by position. -/
theorem C27_sorted {args : CheckArgs} {items : List ResolvedItem} {rs : FileResults} {o : CliOut}
    (h : cliReport args items rs = .ok o) : o.diagnostics.Pairwise NotAfter := by
  unfold cliReport at h
  split at h
  · unfold addJarlIgnore at h
    split at h
    · cases h; exact .nil
    · cases h
  · split at h
    · cases h; exact .nil
    · cases h
      exact (List.pairwise_mergeSort diagLe_trans diagLe_total _).imp (fun h => (diagLe_iff _ _).mp h)

theorem hideUnused_perm {args : CheckArgs} {items : List ResolvedItem} {a b : List (Str × List Diagnostic)} (h : a.Perm b) :
    (hideUnused args items a).Perm (hideUnused args items b) := by
  have hc : unusedHidden args items a = unusedHidden args items b := by
    unfold unusedHidden unusedCount
    rw [((h.flatMap_right (·.2)).filter _).length_eq]
  unfold hideUnused
  rw [hc]
  split
  · exact (h.map _).filter _
  · exact h

/-- Groups of different files do not share positions, so their order does not matter to a stable sort. -/
theorem filter_flatMap_perm {a b : List (Str × List Diagnostic)} (h : a.Perm b)
    (hn : (a.map (·.1)).Nodup) (hf : ∀ x ∈ a, ∀ d ∈ x.2, d.filename = x.1) (y : Diagnostic) :
    (a.flatMap (·.2)).filter (sameKey diagLe y) = (b.flatMap (·.2)).filter (sameKey diagLe y) := by
  have hkey : ∀ d, sameKey diagLe y d = true → d.filename = y.filename := by
    intro d hd
    simp only [sameKey, Bool.and_eq_true, diagLe_iff] at hd
    obtain ⟨h1, h2⟩ := hd
    rcases h1 with h1 | ⟨h1, _⟩
    · rcases h2 with h2 | ⟨h2, _⟩
      · have := pathCmp_decides.trans _ _ _ h1 h2
        have := (pathCmp_decides.lt_iff _ _).mpr this
        rw [(pathCmp_decides.eq_iff _ _).mpr rfl] at this
        cases this
      · exact h2
    · exact h1.symm
  induction h with
  | nil => rfl
  | cons x h ih =>
    simp only [List.flatMap_cons, List.filter_append]
    rw [ih (by simpa using (List.nodup_cons.mp hn).2) (fun z hz => hf z (List.mem_cons_of_mem _ hz))]
  | swap x z l =>
    simp only [List.flatMap_cons, List.filter_append, ← List.append_assoc]
    congr 1
    have hne : z.1 ≠ x.1 := by
      simp only [List.map_cons, List.nodup_cons, List.mem_cons, not_or] at hn
      exact hn.1.1
    by_cases hz : z.1 = y.filename
    · have : x.2.filter (sameKey diagLe y) = [] := by
        rw [List.filter_eq_nil_iff]
        intro d hd hk
        exact hne ((hz.trans (hkey d hk).symm).trans (hf x (by simp) d hd))
      rw [this]; simp
    · have : z.2.filter (sameKey diagLe y) = [] := by
        rw [List.filter_eq_nil_iff]
        intro d hd hk
        exact hz ((hf z (by simp) d hd).symm.trans (hkey d hk))
      rw [this]; simp
  | trans h1 h2 ih1 ih2 =>
    rw [ih1 hn hf]
    apply ih2
    · exact (h1.map _).nodup_iff.mp hn
    · exact fun x hx => hf x (h1.mem_iff.mpr hx)

/-- **C27 (deterministic).** The report does not depend on the order in which the files (each named once, with diagnostics
that carry its name) were treated: same exit status, same diagnostics in the same order, same errors in some order. -/
theorem C27_order_independent {args : CheckArgs} {items : List ResolvedItem} {rs rs' : FileResults} {o : CliOut}
    (hp : rs.Perm rs') (hn : (rs.map (·.1)).Nodup) (hf : ∀ r ∈ rs, ∀ ds, r.2 = .ok ds → ∀ d ∈ ds, d.filename = r.1)
    (h : cliReport args items rs = .ok o) :
    ∃ o', cliReport args items rs' = .ok o' ∧ o'.status = o.status ∧ o'.diagnostics = o.diagnostics ∧
      o'.errors.Perm o.errors := by
  have hall : (allDiagnostics rs).Perm (allDiagnostics rs') := hp.filterMap _
  have hkept := hideUnused_perm (args := args) (items := items) hall
  have herr : (allErrors rs).Perm (allErrors rs') := hp.filterMap _
  have hsub : ∀ x ∈ allDiagnostics rs, (x.1, Except.ok x.2) ∈ rs := by
    intro x hx
    obtain ⟨r, hr, hx⟩ := List.mem_filterMap.mp hx
    obtain ⟨p, res⟩ := r
    cases res with
    | error e => cases hx
    | ok ds =>
      simp only at hx
      split at hx
      · cases hx
      · cases hx; exact hr
  have hnodup : ((allDiagnostics rs).map (·.1)).Nodup := by
    have : ((allDiagnostics rs).map (·.1)).Sublist (rs.map (·.1)) := by
      clear hp hn hf h hall hkept herr hsub
      induction rs with
      | nil => exact .slnil
      | cons r rs ih =>
        unfold allDiagnostics at *
        rw [List.filterMap_cons]
        split
        · exact ih.cons _
        · rename_i x hx
          have hx1 : x.1 = r.1 := by
            split at hx
            · split at hx
              · cases hx
              · cases hx; rfl
            · cases hx
          simp only [List.map_cons, hx1]
          exact ih.cons_cons _
    exact hn.sublist this
  have hflat : flatSorted (hideUnused args items (allDiagnostics rs)) =
      flatSorted (hideUnused args items (allDiagnostics rs')) := by
    unfold flatSorted
    apply mergeSort_eq diagLe_trans diagLe_total
    intro y
    apply filter_flatMap_perm hkept
    · have : ((hideUnused args items (allDiagnostics rs)).map (·.1)).Sublist ((allDiagnostics rs).map (·.1)) := by
        unfold hideUnused
        split
        · have h1 := (List.filter_sublist (p := fun (x : Str × List Diagnostic) => !x.2.isEmpty)
            (l := (allDiagnostics rs).map (fun (p, ds) => (p, ds.filter (fun d => d.name ≠ unusedFunctionName))))).map (·.1)
          simp only [List.map_map] at h1
          exact h1
        · exact List.Sublist.refl _
      exact hnodup.sublist this
    · intro x hx d hd
      have hall' : ∀ x ∈ allDiagnostics rs, ∀ d ∈ x.2, d.filename = x.1 :=
        fun x hx d hd => hf _ (hsub x hx) _ rfl d hd
      unfold hideUnused at hx
      split at hx
      · obtain ⟨hx, _⟩ := List.mem_filter.mp hx
        obtain ⟨z, hz, rfl⟩ := List.mem_map.mp hx
        exact hall' z hz d (List.mem_filter.mp hd).1
      · exact hall' x hx d hd
  have hempty : (hideUnused args items (allDiagnostics rs)).isEmpty = (hideUnused args items (allDiagnostics rs')).isEmpty := by
    rw [Bool.eq_iff_iff, List.isEmpty_iff, List.isEmpty_iff]
    exact ⟨fun h => List.Perm.eq_nil (h ▸ hkept.symm), fun h => List.Perm.eq_nil (h ▸ hkept)⟩
  have heempty : (allErrors rs).isEmpty = (allErrors rs').isEmpty := by
    rw [Bool.eq_iff_iff, List.isEmpty_iff, List.isEmpty_iff]
    exact ⟨fun h => List.Perm.eq_nil (h ▸ herr.symm), fun h => List.Perm.eq_nil (h ▸ herr)⟩
  unfold cliReport at h ⊢
  split at h
  · exact ⟨o, h, rfl, rfl, List.Perm.refl _⟩
  · simp only [← hflat, ← hempty, ← heempty]
    cases hst : args.statistics with
    | true =>
      simp only [hst, if_true, Except.ok.injEq] at h ⊢
      subst h
      exact ⟨_, rfl, rfl, rfl, List.Perm.refl _⟩
    | false =>
      simp only [hst, Bool.false_eq_true, if_false, Except.ok.injEq] at h ⊢
      subst h
      exact ⟨_, rfl, rfl, rfl, herr.symm⟩

/-! ### C28 -/

/-- **C28 (partial: without `--statistics` and `--add-jarl-ignore`).** The exit code is 255 if some file could not be
treated, otherwise 1 if a diagnostic is reported and 0 if none is. -/
theorem C28_exit_code_partial {args : CheckArgs} {items : List ResolvedItem} {rs : FileResults}
    (hs : args.statistics = false) (ha : args.addJarlIgnore = none) :
    ∃ o, cliReport args items rs = .ok o ∧
      ((∃ r ∈ rs, Failed r) → exitCode (cliReport args items rs) = 255) ∧
      ((¬ ∃ r ∈ rs, Failed r) → o.diagnostics ≠ [] → exitCode (cliReport args items rs) = 1) ∧
      ((¬ ∃ r ∈ rs, Failed r) → o.diagnostics = [] → exitCode (cliReport args items rs) = 0) := by
  have hflat : ∀ l : List (Str × List Diagnostic), flatSorted l = [] ↔ l.flatMap (·.2) = [] := by
    intro l
    unfold flatSorted
    constructor
    · intro h
      have := List.mergeSort_perm (l.flatMap (·.2)) diagLe
      rw [h] at this
      exact this.symm.eq_nil
    · intro h; rw [h]; simp
  unfold cliReport
  simp only [ha, hs, Bool.false_eq_true, if_false]
  refine ⟨_, rfl, ?_, ?_, ?_⟩
  · intro h
    simp [exitCode, (allErrors_isEmpty rs).mpr h, ExitStatus.code]
  · intro h hd
    have he : (allErrors rs).isEmpty = true := by
      cases hh : (allErrors rs).isEmpty with
      | true => rfl
      | false => exact absurd ((allErrors_isEmpty rs).mp hh) h
    have hk : (hideUnused args items (allDiagnostics rs)).isEmpty = false := by
      rw [hideUnused_nonempty, ← Bool.not_eq_true, List.isEmpty_iff]
      exact fun hh => hd ((hflat _).mpr hh)
    simp [exitCode, he, hk, ExitStatus.code]
  · intro h hd
    have he : (allErrors rs).isEmpty = true := by
      cases hh : (allErrors rs).isEmpty with
      | true => rfl
      | false => exact absurd ((allErrors_isEmpty rs).mp hh) h
    have hk : (hideUnused args items (allDiagnostics rs)).isEmpty = true := by
      rw [hideUnused_nonempty, List.isEmpty_iff]
      exact (hflat _).mp hd
    simp [exitCode, he, hk, ExitStatus.code]

/-- **C28 (false for `--statistics`; finding F5).** Files that could not be treated do not influence the exit code: it is 0
when the other files have no diagnostic. -/
theorem C28_false_statistics (items : List ResolvedItem) (p : Str) (e : CheckErr) :
    exitCode (cliReport { statistics := true } items [(p, .error e)]) = 0 := by
  have : hideUnused { statistics := true } items (allDiagnostics [(p, .error e)]) = [] := by
    unfold hideUnused; split <;> rfl
  unfold cliReport
  simp only [this]
  simp [flatSorted, statisticsStatus, exitCode, ExitStatus.code]

/-- **C28 (false for `--add-jarl-ignore`; finding F5).** With a one-line reason the exit code is always 0. -/
theorem C28_false_add_ignore (args : CheckArgs) (items : List ResolvedItem) (rs : FileResults) (reason : Str)
    (ha : args.addJarlIgnore = some reason) (hr : '\n' ∉ reason ∧ '\r' ∉ reason) : exitCode (cliReport args items rs) = 0 := by
  have : reasonOk reason = true := by
    unfold reasonOk
    rw [Bool.not_eq_true', ← Bool.not_eq_true, List.any_eq_true]
    rintro ⟨c, hc, h⟩
    simp only [Bool.or_eq_true, decide_eq_true_eq] at h
    rcases h with rfl | rfl
    · exact hr.1 hc
    · exact hr.2 hc
  unfold cliReport
  simp only [ha, addJarlIgnore, this, if_true]
  rfl

/-! ### C30 -/

theorem bump_keys (hm : List (Str × Nat × Bool)) (d : Diagnostic) :
    (bump hm d).map (·.1) = if d.name ∈ hm.map (·.1) then hm.map (·.1) else hm.map (·.1) ++ [d.name] := by
  induction hm with
  | nil => simp [bump]
  | cons x xs ih =>
    obtain ⟨k, n, f⟩ := x
    unfold bump
    by_cases h : k = d.name
    · simp [h]
    · simp only [h, if_false, List.map_cons, ih, List.mem_cons, Ne.symm h, false_or]
      split <;> simp

theorem bump_mem {hm : List (Str × Nat × Bool)} {d : Diagnostic} (hn : (hm.map (·.1)).Nodup) {k : Str} {n : Nat} {f : Bool} :
    (k, n, f) ∈ bump hm d ↔
      (k ≠ d.name ∧ (k, n, f) ∈ hm) ∨
      (k = d.name ∧ ((∃ n0 f0, (k, n0, f0) ∈ hm ∧ n = n0 + 1 ∧ f = (f0 || d.hasSafeFix)) ∨
        (d.name ∉ hm.map (·.1) ∧ n = 1 ∧ f = d.hasSafeFix))) := by
  induction hm with
  | nil => simp [bump]
  | cons x xs ih =>
    obtain ⟨k', n', f'⟩ := x
    simp only [List.map_cons, List.nodup_cons] at hn
    have hkey : ∀ {k n f}, (k, n, f) ∈ xs → k ∈ xs.map (·.1) := fun h => List.mem_map.mpr ⟨_, h, rfl⟩
    unfold bump
    by_cases h : k' = d.name
    · subst h
      simp only [if_true, List.mem_cons, Prod.mk.injEq, List.map_cons, true_or, not_true_eq_false, false_and, or_false]
      constructor
      · rintro (⟨rfl, rfl, rfl⟩ | hm)
        · exact .inr ⟨rfl, n', f', .inl ⟨rfl, rfl, rfl⟩, rfl, rfl⟩
        · have : k ≠ d.name := fun hk => hn.1 (hk ▸ hkey hm)
          exact .inl ⟨this, .inr hm⟩
      · rintro (⟨hk, ⟨h1, _⟩ | hm⟩ | ⟨rfl, n0, f0, ⟨-, rfl, rfl⟩ | hm, rfl, rfl⟩)
        · exact absurd h1 hk
        · exact .inr hm
        · exact .inl ⟨rfl, rfl, rfl⟩
        · exact absurd (hkey hm) hn.1
    · simp only [h, if_false, List.mem_cons, Prod.mk.injEq, ih hn.2, List.map_cons, not_or]
      constructor
      · rintro (⟨rfl, rfl, rfl⟩ | ⟨h1, h2⟩ | ⟨rfl, ⟨n0, f0, h2, h3⟩ | ⟨h2, h3⟩⟩)
        · exact .inl ⟨h, .inl ⟨rfl, rfl, rfl⟩⟩
        · exact .inl ⟨h1, .inr h2⟩
        · exact .inr ⟨rfl, .inl ⟨n0, f0, .inr h2, h3⟩⟩
        · exact .inr ⟨rfl, .inr ⟨⟨Ne.symm h, h2⟩, h3⟩⟩
      · rintro (⟨h1, ⟨rfl, rfl, rfl⟩ | h2⟩ | ⟨rfl, ⟨n0, f0, ⟨h2, _⟩ | h2, h3⟩ | ⟨⟨_, h2⟩, h3⟩⟩)
        · exact .inl ⟨rfl, rfl, rfl⟩
        · exact .inr (.inl ⟨h1, h2⟩)
        · exact absurd h2.symm h
        · exact .inr (.inr ⟨rfl, .inl ⟨n0, f0, h2, h3⟩⟩)
        · exact .inr (.inr ⟨rfl, .inr ⟨h2, h3⟩⟩)

/-- The entries of the counting map. -/
structure Counted (ds : List Diagnostic) (hm : List (Str × Nat × Bool)) : Prop where
  nodup : (hm.map (·.1)).Nodup
  keys : ∀ k, k ∈ hm.map (·.1) ↔ ∃ d ∈ ds, d.name = k
  count : ∀ {k n f}, (k, n, f) ∈ hm → n = countOf k ds
  star : ∀ {k n f}, (k, n, f) ∈ hm → (f = true ↔ ∃ d ∈ ds, d.name = k ∧ d.hasSafeFix = true)

theorem bump_counted {ds : List Diagnostic} {hm : List (Str × Nat × Bool)} (h : Counted ds hm) (d : Diagnostic) :
    Counted (ds ++ [d]) (bump hm d) where
  nodup := by
    rw [bump_keys]
    split
    · exact h.nodup
    · rename_i hn
      rw [List.nodup_append]
      exact ⟨h.nodup, by simp, by rintro a ha b hb rfl; simp at hb; exact hn (hb ▸ ha)⟩
  keys k := by
    rw [bump_keys]
    split
    · rename_i hm
      rw [h.keys]
      constructor
      · rintro ⟨x, hx, rfl⟩; exact ⟨x, by simp [hx], rfl⟩
      · rintro ⟨x, hx, rfl⟩
        rcases List.mem_append.mp hx with hx | hx
        · exact ⟨x, hx, rfl⟩
        · simp at hx; subst hx; exact (h.keys _).mp hm
    · rw [List.mem_append, h.keys]
      constructor
      · rintro (⟨x, hx, rfl⟩ | hk)
        · exact ⟨x, by simp [hx], rfl⟩
        · simp at hk; exact ⟨d, by simp, hk.symm⟩
      · rintro ⟨x, hx, rfl⟩
        rcases List.mem_append.mp hx with hx | hx
        · exact .inl ⟨x, hx, rfl⟩
        · simp at hx; subst hx; exact .inr (by simp)
  count := by
    intro k n f hm
    rw [bump_mem h.nodup] at hm
    unfold countOf
    rw [List.filter_append, List.length_append]
    rcases hm with ⟨hk, hm⟩ | ⟨rfl, ⟨n0, f0, hm, rfl, _⟩ | ⟨hm, rfl, _⟩⟩
    · have := h.count hm
      unfold countOf at this
      simp [this, Ne.symm hk]
    · have := h.count hm
      unfold countOf at this
      simp [this]
    · have : ds.filter (fun x => decide (x.name = d.name)) = [] := by
        rw [List.filter_eq_nil_iff]
        intro x hx hn
        exact hm ((h.keys _).mpr ⟨x, hx, of_decide_eq_true hn⟩)
      simp [this]
  star := by
    intro k n f hm
    rw [bump_mem h.nodup] at hm
    rcases hm with ⟨hk, hm⟩ | ⟨rfl, ⟨n0, f0, hm, _, rfl⟩ | ⟨hm, _, rfl⟩⟩
    · rw [h.star hm]
      constructor
      · rintro ⟨x, hx, h1, h2⟩; exact ⟨x, by simp [hx], h1, h2⟩
      · rintro ⟨x, hx, h1, h2⟩
        rcases List.mem_append.mp hx with hx | hx
        · exact ⟨x, hx, h1, h2⟩
        · simp at hx; subst hx; exact absurd h1.symm hk
    · rw [Bool.or_eq_true, h.star hm]
      constructor
      · rintro (⟨x, hx, h1, h2⟩ | h2)
        · exact ⟨x, by simp [hx], h1, h2⟩
        · exact ⟨d, by simp, rfl, h2⟩
      · rintro ⟨x, hx, h1, h2⟩
        rcases List.mem_append.mp hx with hx | hx
        · exact .inl ⟨x, hx, h1, h2⟩
        · simp at hx; subst hx; exact .inr h2
    · constructor
      · intro h2; exact ⟨d, by simp, rfl, h2⟩
      · rintro ⟨x, hx, h1, h2⟩
        rcases List.mem_append.mp hx with hx | hx
        · exact absurd ((h.keys _).mpr ⟨x, hx, h1⟩) hm
        · simp at hx; subst hx; exact h2

theorem countRules_counted (ds : List Diagnostic) : Counted ds (countRules ds) := by
  have key : ∀ (rest done : List Diagnostic) (hm : List (Str × Nat × Bool)), Counted done hm →
      Counted (done ++ rest) (rest.foldl bump hm) := by
    intro rest
    induction rest with
    | nil => intro done hm h; simpa using h
    | cons d rest ih =>
      intro done hm h
      have := ih (done ++ [d]) _ (bump_counted h d)
      simpa using this
  have h0 : Counted [] [] := ⟨by simp, by simp, by simp, by simp⟩
  exact key ds [] [] h0

theorem sum_countOf : ∀ (keys : List Str) (ds : List Diagnostic), keys.Nodup → (∀ d ∈ ds, d.name ∈ keys) →
    (keys.map (fun k => countOf k ds)).sum = ds.length
  | keys, [], _, _ => by
    have : ∀ l : List Str, (l.map (fun k => countOf k [])).sum = 0 := by
      intro l; induction l with
      | nil => rfl
      | cons a l ih => simp [countOf] at *; exact ih
    exact this keys
  | keys, d :: ds, hn, hk => by
    have ih := sum_countOf keys ds hn (fun x hx => hk x (List.mem_cons_of_mem _ hx))
    have hd := hk d List.mem_cons_self
    have hone : ∀ (l : List Str), l.Nodup →
        (l.map (fun k => countOf k (d :: ds))).sum = (l.map (fun k => countOf k ds)).sum + if d.name ∈ l then 1 else 0 := by
      intro l
      induction l with
      | nil => intro _; simp
      | cons a l ihl =>
        intro hl
        rw [List.nodup_cons] at hl
        have ihl := ihl hl.2
        simp only [List.map_cons, List.sum_cons, ihl, List.mem_cons]
        by_cases h : d.name = a
        · have hnot : d.name ∉ l := h ▸ hl.1
          simp [countOf, h, hnot, hl.1]
          omega
        · have : countOf a (d :: ds) = countOf a ds := by simp [countOf, h]
          simp [this, h]
          omega
    rw [hone keys hn, ih, if_pos hd]
    rfl

/-- **C30.** Whatever the order in which the map is read, the printed lines name each rule with diagnostics exactly once,
with its number of diagnostics, starred iff one of them has a safe fix; they are ordered by decreasing count and the counts
add up to the number of diagnostics. -/
theorem C30_statistics (ds : List Diagnostic) {entries : List (Str × Nat × Bool)} (hp : entries.Perm (countRules ds)) :
    ((statisticsLines entries).map (·.1)).Nodup ∧
    (∀ k, k ∈ (statisticsLines entries).map (·.1) ↔ ∃ d ∈ ds, d.name = k) ∧
    (∀ l ∈ statisticsLines entries, l.2.1 = countOf l.1 ds ∧
      (l.2.2 = true ↔ ∃ d ∈ ds, d.name = l.1 ∧ d.hasSafeFix = true)) ∧
    (statisticsLines entries).Pairwise (fun a b => b.2.1 ≤ a.2.1) ∧
    ((statisticsLines entries).map (·.2.1)).sum = ds.length := by
  have hc := countRules_counted ds
  have hperm : (statisticsLines entries).Perm (countRules ds) :=
    (List.reverse_perm _).trans ((List.mergeSort_perm _ _).trans hp)
  have h1 : ((statisticsLines entries).map (·.1)).Nodup := (hperm.map _).nodup_iff.mpr hc.nodup
  have h2 : ∀ k, k ∈ (statisticsLines entries).map (·.1) ↔ ∃ d ∈ ds, d.name = k := by
    intro k
    rw [(hperm.map _).mem_iff, hc.keys]
  have h3 : ∀ l ∈ statisticsLines entries, l.2.1 = countOf l.1 ds ∧
      (l.2.2 = true ↔ ∃ d ∈ ds, d.name = l.1 ∧ d.hasSafeFix = true) := by
    intro l hl
    have hl := hperm.mem_iff.mp hl
    exact ⟨hc.count hl, hc.star hl⟩
  refine ⟨h1, h2, h3, ?_, ?_⟩
  · unfold statisticsLines
    rw [List.pairwise_reverse]
    have := List.pairwise_mergeSort (le := fun (a b : Str × Nat × Bool) => decide (a.2.1 ≤ b.2.1))
      (by intro a b c h1 h2; simp at *; omega) (by intro a b; simp; omega) entries
    exact this.imp (fun h => by simpa using h)
  · have : (statisticsLines entries).map (·.2.1) = ((statisticsLines entries).map (·.1)).map (fun k => countOf k ds) := by
      rw [List.map_map]
      apply List.map_congr_left
      intro l hl
      exact (h3 l hl).1
    rw [this]
    exact sum_countOf _ ds h1 (fun d hd => (h2 _).mpr ⟨d, hd, rfl⟩)

/-! ### C27 for the results of checking files -/

/-- The diagnostics of a file carry its name. -/
theorem getChecks_filename {L : Lints} {pkg : PackageAnalysis} {cfg : Config} {file contents : Str} {ds : List Diagnostic}
    (h : getChecks L pkg cfg file contents = .ok ds) : ∀ d ∈ ds, d.filename = file := by
  unfold getChecks at h
  split at h
  · rename_i hx
    intro d hd
    have h' : getChecks L pkg cfg file contents = .ok ds := by unfold getChecks; rw [if_pos hx]; exact h
    obtain ⟨_, _, k, c, _, p, m, ds0, _, _, _, d0, _, hr, _⟩ := C15_rmd_reports hx h' d hd
    exact hr.filename
  · unfold getChecksR at h
    cases hc : checkerDiagnostics L pkg cfg file contents with
    | error e => rw [hc] at h; cases h
    | ok pd =>
      obtain ⟨p, ds0⟩ := pd
      rw [hc] at h
      simp only [bind, Except.bind] at h
      cases ht : p.listText with
      | none => rw [ht] at h; cases h
      | some t =>
        rw [ht] at h
        have := (computeLocations_ok h).1
        intro d hd
        rw [this] at hd
        obtain ⟨d1, hd1, rfl⟩ := List.mem_map.mp hd
        obtain ⟨d2, _, rfl⟩ := List.mem_map.mp hd1
        exact (applyFixSettings_same cfg file d2).2.2.2.1

theorem checkPath_filename {L : Lints} {pkg : PackageAnalysis} {cfg : Config} {path : Str} {io : Io} {fuel : Nat}
    {d : Option Str} {ds : List Diagnostic} (h : (checkPath L pkg cfg path io fuel d).2 = some (.ok ds)) :
    ∀ x ∈ ds, x.filename = path := by
  have hl : ∀ {e}, lintOnly L pkg cfg path io d = .ok e → ∀ x ∈ e, x.filename = path := by
    intro e he
    unfold lintOnly at he
    split at he
    · cases he
    · exact getChecks_filename he
  unfold checkPath at h
  split at h
  · cases hx : hasRmdExtension path with
    | true =>
      unfold lintFix at h
      rw [hx] at h
      simp only [if_true, Option.some.injEq] at h
      exact hl h
    | false =>
      cases d with
      | none =>
        unfold lintFix at h
        rw [hx] at h
        cases fuel with
        | zero => simp [lintFixLoop] at h
        | succ f => simp [lintFixLoop, Io.read] at h
      | some a =>
        have ho : LoopEnd L pkg cfg path a (lintFix L pkg cfg path io fuel (some a)).1 (.ok ds) :=
          C21_fix_outcome (io := io) (fuel := fuel) hx (Prod.ext rfl h)
        generalize (lintFix L pkg cfg path io fuel (some a)).1 = d' at ho
        cases ho with
        | ok _ hg => exact getChecks_filename hg
  · simp only [Option.some.injEq] at h
    exact hl h

/-- **C27 (whole runs).** For distinct files, each checked with the configuration of its directory, the report is the same
whatever the order in which the groups and files are treated. -/
theorem C27_run {L : Lints} {pkgOf : Str → PackageAnalysis} {cfgOf : Str → Config} {io : Str → Io} {fuel : Nat} {d : Disk}
    {args : CheckArgs} {items : List ResolvedItem} {res : Str → Except CheckErr (List Diagnostic)} {ps qs : List Str}
    {o : CliOut} (hp : ps.Perm qs) (hn : ps.Nodup)
    (hres : ∀ p ∈ ps, (checkPath L (pkgOf p) (cfgOf p) p (io p) fuel (d p)).2 = some (res p))
    (h : cliReport args items (ps.map (fun p => (p, res p))) = .ok o) :
    ∃ o', cliReport args items (qs.map (fun p => (p, res p))) = .ok o' ∧ o'.status = o.status ∧
      o'.diagnostics = o.diagnostics ∧ o'.errors.Perm o.errors := by
  apply C27_order_independent (hp.map _) _ _ h
  · simpa [List.map_map, Function.comp_def] using hn
  · intro r hr ds hds x hx
    obtain ⟨p, hp, rfl⟩ := List.mem_map.mp hr
    exact checkPath_filename (ds := ds) ((hres p hp).trans (congrArg some hds)) x hx

/-! ### C34: what --add-jarl-ignore does to the files -/

theorem eraseDups_spec [BEq α] [LawfulBEq α] : ∀ (n : Nat) (l : List α), l.length ≤ n →
    l.eraseDups.Nodup ∧ ∀ x, x ∈ l.eraseDups ↔ x ∈ l
  | n, [], _ => by simp
  | n + 1, a :: l, hl => by
    rw [List.eraseDups_cons]
    have hlen : (l.filter (fun b => !b == a)).length ≤ n := by
      have := List.length_filter_le (fun b => !b == a) l
      simp at hl; omega
    obtain ⟨h1, h2⟩ := eraseDups_spec n (l.filter (fun b => !b == a)) hlen
    refine ⟨?_, ?_⟩
    · rw [List.nodup_cons]
      refine ⟨?_, h1⟩
      rw [h2]
      simp
    · intro x
      rw [List.mem_cons, h2, List.mem_filter, List.mem_cons]
      by_cases hx : x = a
      · simp [hx]
      · simp [hx]
  | 0, a :: l, hl => by simp at hl

theorem groupByFile_spec (all : List (Str × List Diagnostic)) :
    ((groupByFile all).map (·.1)).Nodup ∧
    (∀ x ∈ groupByFile all, x.2 = (all.filter (fun y => y.1 = x.1)).flatMap (·.2)) ∧
    (∀ p, p ∈ (groupByFile all).map (·.1) ↔ p ∈ all.map (·.1)) := by
  have hk : (groupByFile all).map (·.1) =
      (all.map (·.1)).eraseDups.mergeSort (fun a b => strCmp a b != .gt) := by
    unfold groupByFile
    rw [List.map_map]
    exact List.map_id _
  obtain ⟨h1, h2⟩ := eraseDups_spec _ (all.map (·.1)) (Nat.le_refl _)
  refine ⟨?_, ?_, ?_⟩
  · rw [hk]
    exact (List.mergeSort_perm _ _).nodup_iff.mpr h1
  · intro x hx
    obtain ⟨p, _, rfl⟩ := List.mem_map.mp hx
    rfl
  · intro p
    rw [hk, (List.mergeSort_perm _ _).mem_iff, h2]

theorem addIgnores_other {point : Str → Str → Diagnostic → Option InsertPoint} {reason : Str}
    {writeFails : Str → Option (Option Str)} : ∀ {l : List (Str × List Diagnostic)} {d d' : Disk} {p : Str},
    p ∉ l.map (·.1) → addIgnores point reason writeFails l d = some d' → d' p = d p
  | [], d, d', p, _, h => by cases h; rfl
  | (q, ds) :: rest, d, d', p, hp, h => by
    simp only [List.map_cons, List.mem_cons, not_or] at hp
    unfold addIgnores at h
    split at h
    · exact addIgnores_other hp.2 h
    · simp only at h
      split at h
      · exact addIgnores_other hp.2 h
      · split at h
        · cases h
        · rw [addIgnores_other hp.2 h]
          simp [Disk.set, hp.1]

theorem addIgnores_spec {point : Str → Str → Diagnostic → Option InsertPoint} {reason : Str}
    {writeFails : Str → Option (Option Str)} : ∀ {l : List (Str × List Diagnostic)} {d d' : Disk},
    (l.map (·.1)).Nodup → addIgnores point reason writeFails l d = some d' → ∀ {p ds}, (p, ds) ∈ l → ∀ {content},
      d p = some content → writeFails p = none →
      (rawEdits point p content ds = [] ∧ d' p = some content) ∨
      ∃ text, addIgnoreToFile content reason (rawEdits point p content ds) = some text ∧ d' p = some text
  | [], d, d', _, h, p, ds, hm, _, _, _ => by cases hm
  | (q, qs) :: rest, d, d', hn, h, p, ds, hm, content, hc, hw => by
    simp only [List.map_cons, List.nodup_cons] at hn
    unfold addIgnores at h
    by_cases hq : p = q
    · subst hq
      have hds : ds = qs := by
        rcases List.mem_cons.mp hm with hm | hm
        · cases hm; rfl
        · exact absurd (List.mem_map.mpr ⟨_, hm, rfl⟩) hn.1
      subst hds
      rw [hc] at h
      simp only at h
      split at h
      · rename_i he
        exact .inl ⟨by simpa using he, by rw [addIgnores_other hn.1 h, hc]⟩
      · split at h
        · cases h
        · rename_i text ht
          rw [hw] at h
          exact .inr ⟨text, ht, by rw [addIgnores_other hn.1 h]; simp [Disk.set]⟩
    · have hm' : (p, ds) ∈ rest := by
        rcases List.mem_cons.mp hm with hm | hm
        · cases hm; exact absurd rfl hq
        · exact hm
      split at h
      · exact addIgnores_spec hn.2 h hm' hc hw
      · simp only at h
        split at h
        · exact addIgnores_spec hn.2 h hm' hc hw
        · split at h
          · cases h
          · exact addIgnores_spec hn.2 h hm' (by simp [Disk.set, hq, hc]) hw

/-- **C34 (files without diagnostics).** `--add-jarl-ignore` does not touch a file in which nothing was found, nor any file
when the reason contains a line break. -/
theorem C34_untouched {point : Str → Str → Diagnostic → Option InsertPoint} {reason : Str}
    {writeFails : Str → Option (Option Str)} {rs : FileResults} {d d' : Disk} {p : Str}
    (h : addIgnoresToDisk point reason writeFails rs d = some d')
    (hp : (∀ ds, (p, Except.ok ds) ∈ rs → ds = []) ∨ '\n' ∈ reason ∨ '\r' ∈ reason) : d' p = d p := by
  unfold addIgnoresToDisk at h
  split at h
  · cases h; rfl
  · rename_i hr
    rcases hp with hp | hp | hp
    · refine addIgnores_other ?_ h
      rw [(groupByFile_spec _).2.2]
      intro hm
      obtain ⟨x, hx, rfl⟩ := List.mem_map.mp hm
      obtain ⟨r, hr, hx⟩ := List.mem_filterMap.mp hx
      obtain ⟨q, res⟩ := r
      cases res with
      | error e => cases hx
      | ok ds =>
        simp only at hx
        split at hx
        · cases hx
        · rename_i hne
          cases hx
          exact hne (by simp [hp ds hr])
    · exact absurd (List.any_eq_true.mpr ⟨_, hp, by simp⟩) hr
    · exact absurd (List.any_eq_true.mpr ⟨_, hp, by simp⟩) hr

/-- **C34 (files with diagnostics).** A readable and writable file in which diagnostics were found ends up as its own text
with the comments for exactly these diagnostics inserted (`addIgnoreToFile`, see C23 and C31), or unchanged if no
insertion point was found for any of them. -/
theorem C34_edited {point : Str → Str → Diagnostic → Option InsertPoint} {reason : Str}
    {writeFails : Str → Option (Option Str)} {rs : FileResults} {d d' : Disk} {p content : Str} {ds : List Diagnostic}
    (h : addIgnoresToDisk point reason writeFails rs d = some d') (hr : '\n' ∉ reason ∧ '\r' ∉ reason)
    (hn : (rs.map (·.1)).Nodup) (hp : (p, Except.ok ds) ∈ rs) (hd : ds ≠ []) (hc : d p = some content)
    (hw : writeFails p = none) :
    (rawEdits point p content ds = [] ∧ d' p = some content) ∨
    ∃ text, addIgnoreToFile content reason (rawEdits point p content ds) = some text ∧ d' p = some text := by
  unfold addIgnoresToDisk at h
  rw [if_neg] at h
  · have hmem : (p, ds) ∈ allDiagnostics rs := by
      refine List.mem_filterMap.mpr ⟨_, hp, ?_⟩
      simp [hd]
    have hone : (allDiagnostics rs).filter (fun y => y.1 = p) = [(p, ds)] := by
      unfold allDiagnostics
      clear h hmem
      induction rs with
      | nil => cases hp
      | cons r rs ih =>
        simp only [List.map_cons, List.nodup_cons] at hn
        have hother : ∀ {l : FileResults}, p ∉ l.map (·.1) →
            (l.filterMap (fun r => match r.2 with
              | .ok ds => if ds.isEmpty then none else some (r.1, ds)
              | .error _ => none)).filter (fun y => decide (y.1 = p)) = [] := by
          intro l hl
          rw [List.filter_eq_nil_iff]
          intro y hy hyp
          obtain ⟨r, hr, hy⟩ := List.mem_filterMap.mp hy
          apply hl
          rw [← of_decide_eq_true hyp]
          have : y.1 = r.1 := by
            split at hy
            · split at hy
              · cases hy
              · cases hy; rfl
            · cases hy
          rw [this]
          exact List.mem_map.mpr ⟨r, hr, rfl⟩
        rcases List.mem_cons.mp hp with rfl | hp
        · have hde : ds.isEmpty = false := by simpa using hd
          simp only [List.filterMap_cons, hde, Bool.false_eq_true, if_false, List.filter_cons, decide_true, if_true]
          congr 1
          exact hother hn.1
        · have hne : r.1 ≠ p := fun he => hn.1 (he ▸ List.mem_map.mpr ⟨_, hp, rfl⟩)
          rw [List.filterMap_cons]
          split
          · exact ih hn.2 hp
          · rename_i y hy
            have hy1 : y.1 = r.1 := by
              split at hy
              · split at hy
                · cases hy
                · cases hy; rfl
              · cases hy
            rw [List.filter_cons_of_neg (by simp [hy1, hne])]
            exact ih hn.2 hp
    obtain ⟨h1, h2, h3⟩ := groupByFile_spec (allDiagnostics rs)
    have hin : p ∈ (groupByFile (allDiagnostics rs)).map (·.1) := (h3 p).mpr (List.mem_map.mpr ⟨_, hmem, rfl⟩)
    obtain ⟨x, hx, rfl⟩ := List.mem_map.mp hin
    have hx2 := h2 x hx
    rw [hone] at hx2
    have hx' : (x.1, ds) ∈ groupByFile (allDiagnostics rs) := by
      have : x = (x.1, ds) := Prod.ext rfl (by simpa using hx2)
      exact this ▸ hx
    exact addIgnores_spec h1 h hx' hc hw
  · rw [List.any_eq_true]
    rintro ⟨c, hcm, hcc⟩
    simp only [Bool.or_eq_true, decide_eq_true_eq] at hcc
    rcases hcc with rfl | rfl
    · exact hr.1 hcm
    · exact hr.2 hcm

/-! ### A concrete run (test) -/

def exDiag (file : Str) (name : Str) (a b : Nat) : Diagnostic :=
  { Diagnostic.new name [] none ⟨a, b⟩ ⟨cs! "x", a, b, false⟩ with filename := file, location := some (1, a) }

def exResults : FileResults := [
  (cs! "b.R", .ok [exDiag (cs! "b.R") (cs! "any_is_na") 5 8, exDiag (cs! "b.R") (cs! "unused_function") 0 3,
    exDiag (cs! "b.R") (cs! "any_is_na") 5 7]),
  (cs! "c.R", .ok []),
  (cs! "a/z.R", .ok [exDiag (cs! "a/z.R") (cs! "repeat") 1 2])]

/-- The order on diagnostics is not trivial: by directory, then start, then end. -/
example : ([exDiag (cs! "a/z.R") (cs! "repeat") 1 2, exDiag (cs! "b.R") (cs! "unused_function") 0 3,
    exDiag (cs! "b.R") (cs! "any_is_na") 5 7, exDiag (cs! "b.R") (cs! "any_is_na") 5 8] : List Diagnostic).Pairwise
      (fun a b => diagLe a b = true ∧ diagLe b a = false) := by decide +kernel

example : (cliReport {} [] exResults).toOption.map (·.status) = some .failure := by decide +kernel
example : unusedHidden {} [⟨{}, 0⟩, ⟨{}, 3⟩] (allDiagnostics exResults) = true := by decide +kernel
example : unusedHidden { select := cs! "PERF, unused_function" } [⟨{}, 0⟩] (allDiagnostics exResults) = false := by
  decide +kernel
example : countRules ((allDiagnostics exResults).flatMap (·.2)) =
    [(cs! "any_is_na", 2, true), (cs! "unused_function", 1, false), (cs! "repeat", 1, true)] := by decide +kernel

end Jarl

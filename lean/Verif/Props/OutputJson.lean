import Verif.Props.Json
/-!
# C60: the JSON report
-/
namespace Jarl
open Spec

theorem readDiag_diagJson (d : Diagnostic) : readDiag (diagJson d) = some d := by
  obtain ⟨name, body, sug, file, ⟨a, b⟩, loc, ⟨content, start, stop, skip⟩⟩ := d
  cases sug <;> cases loc <;> rfl

theorem readErr_errJson (env : OutEnv) (e : Str × CheckErr) :
    readErr (errJson env e) = some (e.1, (cs! ": ").intercalate (errChain env e.1 e.2)) := rfl

theorem mapM_map_some {α β γ : Type} {f : α → β} {g : β → Option γ} {k : α → γ} (h : ∀ a, g (f a) = some (k a)) :
    ∀ l : List α, (l.map f).mapM g = some (l.map k)
  | [] => rfl
  | a :: l => by
    rw [List.map_cons, List.mapM_cons, h, mapM_map_some h l]
    rfl

theorem readReport_report (env : OutEnv) (ds : List Diagnostic) (errors : List (Str × CheckErr)) :
    readReport ((report env ds errors).pretty 0) =
      some (ds, errors.map (fun e => (e.1, (cs! ": ").intercalate (errChain env e.1 e.2)))) := by
  unfold readReport
  rw [readJson_pretty]
  have h1 : field (cs! "diagnostics") (report env ds errors) = some (.arr (ds.map diagJson)) := rfl
  have h2 : field (cs! "errors") (report env ds errors) = some (.arr (errors.map (errJson env))) := rfl
  simp only [bind, Option.bind, h1, h2, asArr]
  rw [mapM_map_some (k := id) readDiag_diagJson, mapM_map_some (readErr_errJson env)]
  simp

/-- A run that prints a report, without `--statistics` and `--add-jarl-ignore`, on at least one file. -/
def Reporting (args : OutArgs) (rs : FileResults) : Prop :=
  rs ≠ [] ∧ args.statistics = false ∧ args.addJarlIgnore = none

/-- What a reporting run prints comes from the diagnostics and errors of its report. -/
theorem checkOutput_reporting {env : OutEnv} {order : List (Str × Nat × Bool) → List (Str × Nat × Bool)} {args : OutArgs}
    {items : List ResolvedItem} {rs : FileResults} {o : CliOut} (h : Reporting args rs)
    (ho : cliReport args.toCheckArgs items rs = .ok o) :
    checkOutput env order args items rs = match emit env args.format o.diagnostics o.errors with
      | none => none
      | some s => if args.format.human then
          some ⟨s.out ++ summary env o.diagnostics (!o.errors.isEmpty) ++
            section_ (cs! "Warnings") (warnings args items (allDiagnostics rs)) ++ section_ (cs! "Notes") (notes args), s.err⟩
        else some s := by
  obtain ⟨h1, h2, h3⟩ := h
  unfold cliReport at ho
  simp only [h3, h2] at ho
  cases ho
  have : rs.isEmpty = false := by cases rs with | nil => exact absurd rfl h1 | cons a l => rfl
  unfold checkOutput
  simp only [this, h2]
  rfl

/-- **C60.** With `--output-format json` standard output is one JSON document, and nothing else is printed. The
`diagnostics` of the document describe exactly the diagnostics of the report, with all their data and in order; its
`errors` are the files that failed, in order, each with the messages from the outermost to the cause. -/
theorem C60_json {env : OutEnv} {order : List (Str × Nat × Bool) → List (Str × Nat × Bool)} {args : OutArgs}
    {items : List ResolvedItem} {rs : FileResults} {o : CliOut} (h : Reporting args rs) (hf : args.format = .json)
    (ho : cliReport args.toCheckArgs items rs = .ok o) :
    ∃ out, checkOutput env order args items rs = some ⟨out, []⟩ ∧
      readReport out = some (o.diagnostics, o.errors.map (fun e => (e.1, (cs! ": ").intercalate (errChain env e.1 e.2)))) := by
  rw [checkOutput_reporting h ho, hf]
  exact ⟨_, rfl, readReport_report env _ _⟩

/-- **C60**, consequence: the document determines the diagnostics. Two runs that print the same found the same. -/
theorem C60_faithful {env : OutEnv} {order : List (Str × Nat × Bool) → List (Str × Nat × Bool)} {args : OutArgs}
    {items : List ResolvedItem} {rs rs' : FileResults} {o o' : CliOut} (h : Reporting args rs) (h' : Reporting args rs')
    (hf : args.format = .json) (ho : cliReport args.toCheckArgs items rs = .ok o)
    (ho' : cliReport args.toCheckArgs items rs' = .ok o')
    (he : checkOutput env order args items rs = checkOutput env order args items rs') :
    o.diagnostics = o'.diagnostics ∧ o.errors.map (·.1) = o'.errors.map (·.1) := by
  obtain ⟨out, h1, h2⟩ := C60_json (env := env) (order := order) h hf ho
  obtain ⟨out', h1', h2'⟩ := C60_json (env := env) (order := order) h' hf ho'
  rw [h1, h1'] at he
  cases he
  rw [h2] at h2'
  simp only [Option.some.injEq, Prod.mk.injEq] at h2'
  refine ⟨h2'.1, ?_⟩
  have := congrArg (List.map (·.1)) h2'.2
  simpa [Function.comp_def] using this

/-- **F33, C60 without the condition is false.** When no file is found, standard output is a sentence, not a JSON
document. -/
theorem C60_false_no_files (env : OutEnv) (order : List (Str × Nat × Bool) → List (Str × Nat × Bool)) (args : OutArgs)
    (items : List ResolvedItem) (hc : env.colors = false) :
    ∃ out, checkOutput env order args items [] = some ⟨out, []⟩ ∧ readJson out = none := by
  refine ⟨cs! "Warning: No R files found under the given path(s).\n", ?_, by decide +kernel⟩
  simp [checkOutput, paint, hc, line]

end Jarl

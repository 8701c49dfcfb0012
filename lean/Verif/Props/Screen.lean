import Verif.Spec.Screen
import Verif.Props.OutputWarnings
import Verif.Props.OutputFalse
/-!
# C81: colours and links are only colours and links
-/
namespace Jarl
open Spec

/-- On the screen, `s` looks like `t`, whatever comes behind it. -/
def Shows (s t : Str) : Prop := ∀ rest, visible (s ++ rest) = t ++ visible rest

theorem Shows.visible {s t : Str} (h : Shows s t) : visible s = t := by
  have := h []
  simpa [Spec.visible, onScreen] using this

theorem Shows.append {a b a' b' : Str} (h1 : Shows a a') (h2 : Shows b b') : Shows (a ++ b) (a' ++ b') := by
  intro rest
  rw [List.append_assoc, h1, h2, List.append_assoc]

theorem shows_plain {s : Str} (h : NoEscape s) : Shows s s := by
  intro rest
  induction s with
  | nil => rfl
  | cons c s ih =>
    have hc : c ≠ Char.ofNat 27 := fun e => h (by simp [e])
    have hs : NoEscape s := fun e => h (by simp [e])
    show onScreen .text (c :: (s ++ rest)) = _
    rw [onScreen, if_neg hc]
    exact congrArg (c :: ·) (ih hs)

theorem shows_nil : Shows [] [] := fun _ => rfl

theorem Shows.line {a b : Str} (h : Shows a b) : Shows (line a) (line b) := h.append (shows_plain (by unfold NoEscape; decide))

/-- A control sequence with plain parameters. -/
theorem control_skip {code rest : Str} (h : ∀ c ∈ code, ¬ (64 ≤ c.toNat ∧ c.toNat ≤ 126)) : onScreen .control (code ++ 'm' :: rest) = onScreen .text rest := by
  induction code with
  | nil => show onScreen .control ('m' :: rest) = _; rw [onScreen, if_pos (by decide)]
  | cons c code ih =>
    show onScreen .control (c :: (code ++ 'm' :: rest)) = _
    rw [onScreen, if_neg (h c (by simp)), ih (fun x hx => h x (by simp [hx]))]

theorem command_skip {text rest : Str} (h : NoEscape text) (h7 : Char.ofNat 7 ∉ text) : onScreen .command (text ++ esc :: '\\' :: rest) = onScreen .text rest := by
  induction text with
  | nil =>
    show onScreen .command (esc :: '\\' :: rest) = _
    rw [onScreen, if_pos (show esc = Char.ofNat 27 from rfl), onScreen, if_pos rfl]
  | cons c text ih =>
    show onScreen .command (c :: (text ++ esc :: '\\' :: rest)) = _
    rw [onScreen, if_neg (fun e => h (by simp [e])), if_neg (fun e => h7 (by simp [e])), ih (fun e => h (by simp [e])) (fun e => h7 (by simp [e]))]

theorem shows_paint (env : OutEnv) {code s t : Str} (hc : ∀ c ∈ code, ¬ (64 ≤ c.toNat ∧ c.toNat ≤ 126)) (h : Shows s t) : Shows (paint env code s) (paint (withoutColor env) code t) := by
  have e0 : paint (withoutColor env) code t = t := rfl
  rw [e0]
  unfold paint
  split
  · intro rest
    have e1 : esc :: (cs! "[" ++ code ++ cs! "m") ++ s ++ esc :: cs! "[0m" ++ rest = esc :: '[' :: (code ++ 'm' :: (s ++ (esc :: '[' :: (cs! "0" ++ 'm' :: rest)))) := by simp
    rw [e1]
    have h2 : ∀ r, visible (esc :: '[' :: (cs! "0" ++ 'm' :: r)) = visible r := by
      intro r
      show onScreen .text (esc :: '[' :: (cs! "0" ++ 'm' :: r)) = _
      rw [onScreen, if_pos (show esc = Char.ofNat 27 from rfl), onScreen, if_pos rfl, control_skip (by decide)]
      rfl
    show onScreen .text (esc :: '[' :: _) = _
    rw [onScreen, if_pos (show esc = Char.ofNat 27 from rfl), onScreen, if_pos rfl, control_skip hc]
    have := h (esc :: '[' :: (cs! "0" ++ 'm' :: rest))
    rw [h2] at this
    exact this
  · exact h

/-- Without the bell, which would end a link. -/
theorem shows_link {text : Str} (h : NoEscape text) (h7 : Char.ofNat 7 ∉ text) : Shows (hyperlink text) text := by
  intro rest
  have e1 : hyperlink text ++ rest = esc :: ']' :: ((cs! "8;;https://jarl.etiennebacher.com/rules/" ++ text) ++ esc :: '\\' :: (text ++ (esc :: ']' :: (cs! "8;;" ++ esc :: '\\' :: rest)))) := by
    unfold hyperlink; simp
  rw [e1]
  have h2 : visible (esc :: ']' :: (cs! "8;;" ++ esc :: '\\' :: rest)) = visible rest := by
    show onScreen .text (esc :: ']' :: _) = _
    rw [onScreen, if_pos (show esc = Char.ofNat 27 from rfl), onScreen, if_neg (by decide), if_pos rfl, command_skip (by unfold NoEscape; decide) (by decide)]
    rfl
  show onScreen .text (esc :: ']' :: _) = _
  rw [onScreen, if_pos (show esc = Char.ofNat 27 from rfl), onScreen, if_neg (by decide), if_pos rfl, command_skip ?_ ?_]
  · have := shows_plain h (esc :: ']' :: (cs! "8;;" ++ esc :: '\\' :: rest))
    rw [h2] at this
    exact this
  · intro hm
    rcases List.mem_append.1 hm with hm | hm
    · exact absurd hm (by decide)
    · exact h hm
  · intro hm
    rcases List.mem_append.1 hm with hm | hm
    · exact absurd hm (by decide)
    · exact h7 hm

/-! ## The parts of the output -/

theorem ne_append {a b : Str} (h1 : NoEscape a) (h2 : NoEscape b) : NoEscape (a ++ b) := by
  intro h; rcases List.mem_append.1 h with h | h
  · exact h1 h
  · exact h2 h

theorem ne_flatMap {α : Type} {l : List α} {f : α → Str} (h : ∀ x ∈ l, NoEscape (f x)) : NoEscape (l.flatMap f) := by
  intro hm
  obtain ⟨x, hx, hm⟩ := List.mem_flatMap.1 hm
  exact h x hx hm

theorem ne_digits (n : Nat) : NoEscape (digits n) := not_mem_digits (by decide) n

theorem ne_line {s : Str} (h : NoEscape s) : NoEscape (line s) := ne_append h (by unfold NoEscape; decide)

macro "lit" : tactic => `(tactic| (unfold NoEscape; decide))

theorem ne_replicate {c : Char} (h : c ≠ Char.ofNat 27) (n : Nat) : NoEscape (List.replicate n c) := by
  intro hm; exact h (List.mem_replicate.1 hm).2.symm

theorem rule_ne (r : Rule) : NoEscape r.name ∧ Char.ofNat 7 ∉ r.name := by
  unfold NoEscape
  cases r <;> decide

theorem ne_relativize {cwd p : Str} (h : NoEscape p) : NoEscape (relativize cwd p) := by
  unfold relativize
  split
  · lit
  · cases hs : stripPrefix (cwd ++ ['/']) p with
    | none => exact h
    | some r =>
      have := stripPrefix_iff.1 hs
      intro hm; exact h (by rw [this]; exact List.mem_append_right _ hm)

theorem ne_text {d : Diagnostic} (h1 : NoEscape d.body) (h2 : ∀ s, d.suggestion = some s → NoEscape s) : NoEscape d.text := by
  unfold Diagnostic.text
  split
  · exact ne_append (ne_append h1 (by lit)) (h2 _ ‹_›)
  · exact h1

theorem shows_title (env : OutEnv) (r : Rule) : Shows (ruleTitle env r.name) (ruleTitle (withoutColor env) r.name) := by
  show Shows _ r.name
  unfold ruleTitle
  split
  · exact shows_plain (rule_ne r).1
  · exact shows_link (rule_ne r).1 (rule_ne r).2

/-- Both do not print, or one looks like the other. -/
def ShowsBoth : Option Str → Option Str → Prop
  | none, none => True
  | some a, some b => Shows a b
  | _, _ => False

theorem showsBoth_emitAll {f g : Diagnostic → Option Str} : ∀ {ds : List Diagnostic}, (∀ d ∈ ds, ShowsBoth (f d) (g d)) → ShowsBoth (emitAll f ds) (emitAll g ds) := by
  intro ds
  induction ds with
  | nil => intro _; exact shows_nil
  | cons d ds ih =>
    intro h
    have h1 := h d (by simp)
    have h2 := ih (fun x hx => h x (by simp [hx]))
    unfold emitAll
    revert h1 h2
    cases f d <;> cases g d <;> cases emitAll f ds <;> cases emitAll g ds <;> simp only [ShowsBoth] <;> intro h1 h2 <;> first
      | exact h1.elim
      | exact h2.elim
      | exact h1.append h2
      | trivial

/-- No escape character in the diagnostic. -/
def NoEscapeDiag (d : Diagnostic) : Prop := NoEscape d.filename ∧ (∃ r : Rule, d.name = r.name) ∧ NoEscape d.body ∧ ∀ s, d.suggestion = some s → NoEscape s

theorem shows_concise (env : OutEnv) {d : Diagnostic} (h : NoEscapeDiag d) : ShowsBoth (conciseLine env d) (conciseLine (withoutColor env) d) := by
  obtain ⟨h1, ⟨r, hr⟩, h3, h4⟩ := h
  unfold conciseLine
  cases d.location with
  | none => trivial
  | some rc =>
    obtain ⟨row, col⟩ := rc
    show Shows _ _
    simp only []
    rw [hr]
    exact Shows.line (((((((((shows_paint env (by decide) (shows_plain (ne_relativize h1))).append (shows_plain (by lit))).append (shows_plain (ne_digits _))).append (shows_plain (by lit))).append
      (shows_plain (ne_digits _))).append (shows_plain (by lit))).append (shows_paint env (by decide) (shows_title env r))).append (shows_plain (by lit))).append (shows_plain (ne_text h3 h4)))

theorem shows_github {d : Diagnostic} (h : NoEscapeDiag d) : ShowsBoth (githubLine d) (githubLine d) := by
  obtain ⟨h1, ⟨r, hr⟩, h3, h4⟩ := h
  unfold githubLine
  cases d.location with
  | none => trivial
  | some rc =>
    obtain ⟨row, col⟩ := rc
    show Shows _ _
    simp only []
    have hn : NoEscape d.name := hr ▸ (rule_ne r).1
    have hl : NoEscape (line (cs! "[" ++ d.name ++ cs! "] " ++ d.text)) := ne_line (ne_append (ne_append (ne_append (by lit) hn) (by lit)) (ne_text h3 h4))
    exact shows_plain (ne_append (ne_append (ne_append (ne_append (ne_append (ne_append (ne_append (ne_append (ne_append (ne_append (ne_append (ne_append (ne_append (ne_append (ne_append
      (by lit) hn) (by lit)) h1) (by lit)) (ne_digits _)) (by lit)) (ne_digits _)) (by lit)) h1) (by lit)) (ne_digits _)) (by lit)) (ne_digits _)) (by lit)) hl)

theorem shows_full (env : OutEnv) {d : Diagnostic} (hr : RendersPlain env d) : ShowsBoth (fullBlock env d) (fullBlock (withoutColor env) d) := by
  unfold fullBlock
  cases d.location with
  | none => trivial
  | some rc =>
    show Shows _ _
    simp only []
    have e : (withoutColor env).read d.filename = env.read d.filename := rfl
    rw [e]
    cases hs : env.read d.filename with
    | error m => exact shows_nil
    | ok source => exact (Shows.line (fun rest => hr source _ hs rest)).append (shows_plain (by lit))

theorem shows_errors (env : OutEnv) {errors : List (Str × CheckErr)} (h : ∀ e ∈ errors, NoEscape e.1 ∧ ∀ x, NoEscape (env.detail e.1 x)) :
    Shows (errLines env errors) (errLines (withoutColor env) errors) := by
  have hshown : ∀ e ∈ errors, NoEscape (errShown env e.1 e.2) := by
    intro e he
    obtain ⟨h1, h2⟩ := h e he
    unfold errShown errChain
    cases e.2 <;> simp only [List.getLast?, List.head?, Option.getD, List.getLast, if_true, if_false, reduceCtorEq] <;>
      first
        | exact h2 _
        | exact ne_append (by lit) h1
        | exact ne_append (ne_append (by lit) h1) (by lit)
  unfold errLines
  induction errors with
  | nil => exact shows_nil
  | cons e es ih =>
    rw [List.flatMap_cons, List.flatMap_cons]
    refine Shows.append ?_ (ih (fun x hx => h x (by simp [hx])) (fun x hx => hshown x (by simp [hx])))
    exact Shows.line (((shows_paint env (by decide) (shows_plain (by lit))).append (shows_plain (by lit))).append (shows_plain (hshown e (by simp))))

theorem ne_warnings (env : OutEnv) (h : ∀ p m, env.read p = .error m → NoEscape m) {ds : List Diagnostic} (hd : ∀ d ∈ ds, NoEscapeDiag d) : NoEscape (fullWarnings env ds) := by
  refine ne_flatMap fun d hm => ?_
  split
  · lit
  · rename_i m hx
    exact ne_line (ne_append (ne_append (ne_append (by lit) (hd d hm).1) (by lit)) (h _ _ hx))

theorem ne_header (t : Str) (h : NoEscape t) : NoEscape (sectionHeader t) := by
  unfold sectionHeader
  exact ne_line (ne_append (ne_append (ne_append (by lit) h) (by lit)) (ne_replicate (by decide) _))

theorem ne_int (i : Int) : NoEscape (intDigits i) := by
  unfold intDigits
  split
  · exact ne_append (a := ['-']) (by lit) (ne_digits _)
  · exact ne_digits _

theorem ne_fixLines (a b : Nat) : NoEscape (fixLines a b) := by
  unfold fixLines
  repeat' first
    | exact ne_digits _
    | refine ne_line ?_
    | refine ne_append ?_ ?_
    | lit
    | split

theorem ne_summary (env : OutEnv) (ds : List Diagnostic) (b : Bool) : NoEscape (summary env ds b) := by
  unfold summary
  simp only []
  repeat' first
    | exact ne_digits _
    | exact ne_int _
    | exact ne_fixLines _ _
    | exact ne_header _ (by lit)
    | refine ne_line ?_
    | refine ne_append ?_ ?_
    | lit
    | split

theorem ne_section {t : Str} (ht : NoEscape t) {items : List Str} (h : ∀ i ∈ items, NoEscape i) : NoEscape (section_ t items) := by
  unfold section_
  split
  · lit
  · exact ne_append (ne_append (ne_line (by lit)) (ne_header _ ht)) (ne_flatMap fun i hi => ne_line (h i hi))

theorem ne_warningItems (args : OutArgs) (items : List ResolvedItem) (all : List (Str × List Diagnostic)) : ∀ i ∈ warnings args items all, NoEscape i := by
  intro i hi
  unfold warnings at hi
  simp only [List.mem_append] at hi
  rcases hi with ((hi | hi) | hi) | hi
  · split at hi
    · rw [List.mem_singleton] at hi; subst hi; lit
    · cases hi
  · split at hi
    · rw [List.mem_singleton] at hi; subst hi; exact ne_append (ne_digits _) (by lit)
    · cases hi
  · obtain ⟨_, _, rfl⟩ := List.mem_map.1 hi; lit
  · obtain ⟨n, _, hn⟩ := List.mem_filterMap.1 hi
    rw [deprecationWarning_eq] at hn
    split at hn
    · cases hn; unfold NoEscape; decide +kernel
    · cases hn

theorem ne_notes {env : OutEnv} {args : OutArgs} {rs : FileResults} (h : Unescaped env args rs) : ∀ i ∈ notes args, NoEscape i := by
  intro i hi
  unfold notes at hi
  rw [List.mem_append] at hi
  rcases hi with hi | hi
  · split at hi
    · rw [List.mem_singleton] at hi; subst hi; exact ne_append (by lit) (h.timing _ ‹_›)
    · cases hi
  · split at hi
    · rw [List.mem_singleton] at hi; subst hi; exact ne_append (ne_append (by lit) (h.config _ ‹_›)) (by lit)
    · cases hi

theorem reported_from {args : CheckArgs} {items : List ResolvedItem} {rs : FileResults} {d : Diagnostic} (h : d ∈ flatSorted (hideUnused args items (allDiagnostics rs))) :
    ∃ r ∈ rs, ∃ ds, r.2 = .ok ds ∧ d ∈ ds := by
  unfold flatSorted at h
  rw [List.mem_mergeSort] at h
  have h1 : d ∈ (allDiagnostics rs).flatMap (·.2) := by
    unfold hideUnused at h
    split at h
    · obtain ⟨x, hx, hd⟩ := List.mem_flatMap.1 h
      obtain ⟨y, hy, rfl⟩ := List.mem_map.1 (List.mem_filter.1 hx).1
      exact List.mem_flatMap.2 ⟨y, hy, (List.mem_filter.1 hd).1⟩
    · exact h
  obtain ⟨x, hx, hd⟩ := List.mem_flatMap.1 h1
  obtain ⟨r, hr, hrx⟩ := List.mem_filterMap.1 hx
  refine ⟨r, hr, ?_⟩
  split at hrx
  · rename_i ds hds
    split at hrx
    · cases hrx
    · cases hrx; exact ⟨ds, hds, hd⟩
  · cases hrx

theorem count_names {P : Str → Prop} : ∀ {ds : List Diagnostic} {hm : List (Str × Nat × Bool)}, (∀ e ∈ hm, P e.1) → (∀ d ∈ ds, P d.name) → ∀ e ∈ ds.foldl bump hm, P e.1 := by
  have one : ∀ {hm : List (Str × Nat × Bool)} {d : Diagnostic}, (∀ e ∈ hm, P e.1) → P d.name → ∀ e ∈ bump hm d, P e.1 := by
    intro hm
    induction hm with
    | nil =>
      intro d _ hd e he
      rw [bump, List.mem_singleton] at he
      subst he; exact hd
    | cons x hm ih =>
      obtain ⟨k, n, f⟩ := x
      intro d h hd e he
      rw [bump] at he
      split at he
      · rcases List.mem_cons.1 he with rfl | he
        · exact h (k, n, f) (by simp)
        · exact h e (by simp [he])
      · rcases List.mem_cons.1 he with rfl | he
        · exact h (k, n, f) (by simp)
        · exact ih (fun x hx => h x (by simp [hx])) hd e he
  intro ds
  induction ds with
  | nil => intro hm h _; exact h
  | cons d ds ih =>
    intro hm h hd
    exact ih (one h (hd d (by simp))) (fun x hx => hd x (by simp [hx]))

theorem shows_statistics (env : OutEnv) {args : OutArgs} {ds : List Diagnostic} {entries : List (Str × Nat × Bool)} (h : ∀ e ∈ entries, NoEscape e.1)
    (hp : ∀ p, args.parentConfig = some p → NoEscape p) : Shows (statisticsText env args ds entries) (statisticsText (withoutColor env) args ds entries) := by
  unfold statisticsText
  split
  · exact shows_plain (by lit)
  · refine Shows.append (Shows.append (Shows.append ?_ (shows_plain (by lit))) (shows_plain (by lit))) (shows_plain ?_)
    · have hm : ∀ e ∈ statisticsLines entries, NoEscape e.1 := by
        intro e he
        unfold statisticsLines at he
        rw [List.mem_reverse, List.mem_mergeSort] at he
        exact h e he
      revert hm
      induction statisticsLines entries with
      | nil => intro _; exact shows_nil
      | cons e es ih =>
        intro hm
        rw [List.flatMap_cons, List.flatMap_cons]
        refine Shows.append ?_ (ih fun x hx => hm x (by simp [hx]))
        unfold statLine
        refine Shows.line (((((shows_paint env (by decide) (shows_plain ?_)).append (shows_plain (by lit))).append (shows_plain ?_)).append (shows_plain (by lit))).append
          (shows_paint env (by decide) (shows_plain (hm e (by simp)))))
        · exact ne_append (ne_replicate (by decide) _) (ne_digits _)
        · split <;> lit
    · split
      · exact ne_append (ne_line (by lit)) (ne_line (ne_append (ne_append (by lit) (hp _ ‹_›)) (by lit)))
      · lit

/-- What is shown of the two streams. -/
def ShowsStreams : Option Streams → Option Streams → Prop
  | none, none => True
  | some a, some b => Shows a.out b.out ∧ Shows a.err b.err
  | _, _ => False

theorem shows_map {f g : Str → Streams} {a b : Option Str} (h : ShowsBoth a b) (hfg : ∀ x y, Shows x y → Shows (f x).out (g y).out ∧ Shows (f x).err (g y).err) :
    ShowsStreams (a.map f) (b.map g) := by
  cases a <;> cases b <;> first | trivial | exact h.elim | exact hfg _ _ h

/-- **C81.** Colours and links are only colours and links: whatever NO_COLOR and the colours are, what a terminal shows of the output of a run is exactly what is printed with NO_COLOR set and
without colours, character by character, on both streams, in every format but JSON and with `--statistics`; and the run panics in both cases or in none. (There are no escape characters in what
was found, and for the full format the renderer of code adds nothing else.) -/
theorem C81_colours {env : OutEnv} {order : List (Str × Nat × Bool) → List (Str × Nat × Bool)} (hord : ∀ l, ∀ e ∈ order l, e ∈ l) {args : OutArgs} {items : List ResolvedItem} {rs : FileResults}
    (hf : args.format ≠ .json) (h : Unescaped env args rs) (hr : args.format = .full → ∀ r ∈ rs, ∀ ds, r.2 = .ok ds → ∀ d ∈ ds, RendersPlain env d) :
    (checkOutput env order args items rs).map (fun s => (⟨visible s.out, visible s.err⟩ : Streams)) = checkOutput (withoutColor env) order args items rs := by
  have fin : ∀ {a b : Option Streams}, ShowsStreams a b → a.map (fun s => (⟨visible s.out, visible s.err⟩ : Streams)) = b := by
    intro a b hab
    cases a <;> cases b <;> first | rfl | exact hab.elim | skip
    obtain ⟨h1, h2⟩ := hab
    simp only [Option.map_some, h1.visible, h2.visible]
  refine fin ?_
  have hne : ∀ d ∈ flatSorted (hideUnused args.toCheckArgs items (allDiagnostics rs)), NoEscapeDiag d := by
    intro d hd
    obtain ⟨r, hr, ds, hds, hd⟩ := reported_from hd
    exact h.diags r hr ds hds d hd
  unfold checkOutput
  split
  · exact ⟨Shows.line (((shows_paint env (by decide) (shows_plain (by lit))).append (shows_plain (by lit))).append (shows_paint env (by decide) (shows_plain (by lit)))), shows_nil⟩
  · simp only []
    split
    · refine ⟨shows_statistics env ?_ h.config, shows_nil⟩
      intro e he
      refine count_names (P := NoEscape) (by simp) (fun d hd => ?_) e (hord _ e he)
      obtain ⟨r, hr⟩ := (hne d hd).2.1
      rw [hr]; exact (rule_ne r).1
    · have herr : Shows (errLines env (allErrors rs)) (errLines (withoutColor env) (allErrors rs)) := by
        refine shows_errors env fun e he => ?_
        obtain ⟨r, hr, hre⟩ := List.mem_filterMap.1 he
        split at hre
        · cases hre
        · cases hre; exact h.files r hr
      have hem : ShowsStreams (emit env args.format (flatSorted (hideUnused args.toCheckArgs items (allDiagnostics rs))) (allErrors rs))
          (emit (withoutColor env) args.format (flatSorted (hideUnused args.toCheckArgs items (allDiagnostics rs))) (allErrors rs)) := by
        cases hfm : args.format with
        | json => exact absurd hfm hf
        | concise =>
          exact shows_map (showsBoth_emitAll fun d hd => shows_concise env (hne d hd)) (fun x y hxy => ⟨hxy, herr⟩)
        | github => exact shows_map (showsBoth_emitAll fun d hd => shows_github (hne d hd)) (fun x y hxy => ⟨hxy, shows_nil⟩)
        | full =>
          refine shows_map (showsBoth_emitAll fun d hd => shows_full env ?_) (fun x y hxy => ⟨hxy, (herr.append (shows_plain ?_)).append (shows_plain (ne_warnings env h.read hne))⟩)
          · obtain ⟨r, hm, ds, hds, hd⟩ := reported_from hd
            exact hr hfm r hm ds hds d hd
          · split <;> lit
      revert hem
      cases emit env args.format (flatSorted (hideUnused args.toCheckArgs items (allDiagnostics rs))) (allErrors rs) <;>
        cases emit (withoutColor env) args.format (flatSorted (hideUnused args.toCheckArgs items (allDiagnostics rs))) (allErrors rs) <;> intro hem
      · trivial
      · exact hem.elim
      · exact hem.elim
      · simp only []
        split
        · exact ⟨((hem.1.append (shows_plain (ne_summary env _ _))).append (shows_plain (ne_section (by lit) (ne_warningItems _ _ _)))).append (shows_plain (ne_section (by lit) (ne_notes h))), hem.2⟩
        · exact hem

/-! ### Example -/

/-- A terminal with colours. -/
def brightEnv : OutEnv := { plainEnv with noColor := false, colors := true }

theorem exPrinted_unescaped (f : OutputFormat) : Unescaped brightEnv { format := f } exPrinted where
  files := by
    intro r hr
    simp only [exPrinted, List.mem_cons, List.not_mem_nil, or_false] at hr
    rcases hr with rfl | rfl <;> exact ⟨by unfold NoEscape; decide +kernel, fun _ => by show NoEscape (cs! "?"); unfold NoEscape; decide +kernel⟩
  diags := by
    intro r hr ds hds d hd
    simp only [exPrinted, List.mem_cons, List.not_mem_nil, or_false] at hr
    rcases hr with rfl | rfl
    · cases hds
      rw [List.mem_singleton.1 hd]
      refine ⟨by unfold NoEscape; decide +kernel, ⟨.anyIsNa, by decide +kernel⟩, by unfold NoEscape; decide +kernel, fun s hs => ?_⟩
      cases hs
      unfold NoEscape; decide +kernel
    · cases hds
  read := by
    intro p m h
    cases h
    unfold NoEscape; decide +kernel
  timing := by intro t h; cases h
  config := by intro t h; cases h

/-- The output has escape sequences, and what is seen of it is the output without colours. -/
example : (checkOutput brightEnv id { format := .concise } [] exPrinted).map (fun s => (⟨visible s.out, visible s.err⟩ : Streams)) =
      checkOutput (withoutColor brightEnv) id { format := .concise } [] exPrinted ∧
    (checkOutput brightEnv id { format := .concise } [] exPrinted).any (fun s => s.out.contains (Char.ofNat 27)) = true :=
  ⟨C81_colours (fun _ _ h => h) (by decide) (exPrinted_unescaped _) (by intro h; cases h), by
    unfold checkOutput
    decide +kernel⟩

end Jarl

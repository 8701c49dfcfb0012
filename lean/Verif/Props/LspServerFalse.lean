import Verif.Props.LspServer
/-!
# C46: what does not hold of the language server's threads
-/
namespace Jarl
open Spec

/-- A linter that reports the text of the document. -/
def echoDiag (t : Str) : LspDiag := ⟨⟨⟨0, 0⟩, ⟨0, 0⟩⟩, t, ⟨[], 0, 0, true, [], 0, 0⟩⟩

def echoEnv : ServerEnv where
  enc := .utf16
  lint _ t r := r = .ok [echoDiag t]
  actions _ _ _ r := r = .ok []

theorem echoEnv_ok : NoFailure echoEnv := ⟨fun _ _ r h => ⟨_, h⟩, fun _ _ _ h => by cases h⟩

theorem echoEnv_terminates : Terminates echoEnv := ⟨fun _ _ => ⟨_, rfl⟩, fun _ _ _ => ⟨_, rfl⟩⟩

/-- The document, its two texts, and the edit between them. -/
def wUri : Str := ['f']
def wEdit : PlacedEdit := ⟨[], ['a'], [], ['b']⟩

def wHist : List ClientMsg :=
  [.didOpen wUri ['a'] 1] ++ [.didSave wUri] ++ [.didChange wUri ([wEdit].map (PlacedEdit.event .utf16)) 2] ++ [.didSave wUri]

theorem wSession : Session .utf16 wHist
    (upd (upd (fun _ => none) wUri (some (['a'], 1))) wUri (some (['b'], 2))) [(wUri, ['a'], 1), (wUri, ['b'], 2)] [] := by
  have h1 := Session.didOpen wUri ['a'] 1 (Session.start (enc := .utf16))
  have h2 := Session.save (u := wUri) (t := ['a']) (v := 1) h1 (by simp [upd])
  have h3 := Session.edit (u := wUri) (t := ['a']) (w := 1) (es := [wEdit]) (t' := ['b']) 2 h2 (by simp [upd])
    (.step (e := wEdit) (.done _)) trivial
  exact Session.save (u := wUri) (t := ['b']) (v := 2) h3 (by simp [upd])

theorem wChange (s : ServerState) (hd : s.docs wUri = some (TextDoc.new ['a'] 1)) :
    handleMsg .utf16 s (.didChange wUri ([wEdit].map (PlacedEdit.event .utf16)) 2) =
      some { s with docs := setDoc s.docs wUri (some (TextDoc.new ['b'] 2)) } := by
  simp only [handleMsg, hd, C42_end_to_start .utf16 1 2 ['a'] ['b'] [wEdit] (.step (e := wEdit) (.done _)) trivial]

/-- **C46 is false of two workers**: no task fails, all are finished, and the editor displays the diagnostics of the text before
the last save: the second worker was faster. -/
theorem C46_false_stale_diagnostics :
    ∃ (env : ServerEnv) (h : List ClientMsg) (s : ServerState) (V : _) (u t : Str) (v : Int) (S0 : _) (ds : List LspDiag),
      NoFailure env ∧ Terminates env ∧ ServerRun env 2 h s ∧ Session env.enc h V (S0 ++ [(u, t, v)]) [] ∧ Quiet s ∧
      V u = some (t, v) ∧ shown u s.out = some ds ∧ ¬ env.lint u t (.ok ds) := by
  have r1 := ServerRun.recv (m := .didOpen wUri ['a'] 1) (ServerRun.init (env := echoEnv) (n := 2)) rfl rfl (by decide)
  have r2 := ServerRun.recv (m := .didSave wUri) r1 rfl rfl (by decide)
  have r3 := ServerRun.recv r2 rfl (wChange _ rfl) (by decide)
  have r4 := ServerRun.recv (m := .didSave wUri) r3 rfl rfl (by decide)
  have r5 := ServerRun.work r4 (.take rfl (by decide))
  have r6 := ServerRun.work r5 (.take rfl (by decide))
  have r7 := ServerRun.work r6 (.lintOk (a := [_]) (b := []) rfl rfl)
  have r8 := ServerRun.work r7 (.lintOk (a := []) (b := []) rfl rfl)
  refine ⟨echoEnv, _, _, _, wUri, ['b'], 2, [(wUri, ['a'], 1)], [echoDiag ['a']], echoEnv_ok, echoEnv_terminates, r8,
    wSession, ⟨rfl, rfl⟩, by simp [upd], rfl, ?_⟩
  intro h
  cases h

/-- **C46 is false of closed documents**, even with one worker: a document is saved and closed; the editor still
displays diagnostics, because they are published after the message that clears them. -/
theorem C46_false_closed_document :
    ∃ (env : ServerEnv) (h : List ClientMsg) (s : ServerState) (V : _) (S : _) (u : Str) (ds : List LspDiag),
      NoFailure env ∧ Terminates env ∧ ServerRun env 1 h s ∧ Session env.enc h V S [] ∧ Quiet s ∧
      V u = none ∧ shown u s.out = some ds ∧ ds ≠ [] := by
  have h1 := Session.didOpen wUri ['a'] 1 (Session.start (enc := .utf16))
  have h2 := Session.save (u := wUri) (t := ['a']) (v := 1) h1 (by simp [upd])
  have h3 := Session.didClose wUri h2
  have r1 := ServerRun.recv (m := .didOpen wUri ['a'] 1) (ServerRun.init (env := echoEnv) (n := 1)) rfl rfl (by decide)
  have r2 := ServerRun.recv (m := .didSave wUri) r1 rfl rfl (by decide)
  have r3 := ServerRun.recv (m := .didClose wUri) r2 rfl rfl (by decide)
  have r4 := ServerRun.work r3 (.take rfl (by decide))
  have r5 := ServerRun.work r4 (.lintOk (a := []) (b := []) rfl rfl)
  exact ⟨echoEnv, _, _, _, _, wUri, [echoDiag ['a']], echoEnv_ok, echoEnv_terminates, r5, h3, ⟨rfl, rfl⟩,
    by simp [upd], rfl, by simp⟩

/-! ## A panic in a worker -/

/-- Everything that can happen after the state `s`. -/
inductive Continues (env : ServerEnv) (s : ServerState) : ServerState → Prop
  | refl : Continues env s s
  | recv {t m t'} : Continues env s t → t.stopped = false → handleMsg env.enc t m = some t' → t'.queue.length ≤ 100 →
      Continues env s t'
  | work {t t'} : Continues env s t → WorkStep env t t' → Continues env s t'

/-- The code action answers among the messages sent. -/
def actionAnswers : List ServerMsg → List Nat
  | [] => []
  | .actions id _ :: ms => id :: actionAnswers ms
  | _ :: ms => actionAnswers ms

theorem actionAnswers_append (a b : List ServerMsg) : actionAnswers (a ++ b) = actionAnswers a ++ actionAnswers b := by
  induction a with
  | nil => rfl
  | cons m ms ih => cases m <;> simp [actionAnswers, ih]

theorem handle_dead {enc : Enc} {s t : ServerState} {m : ClientMsg} (hm : handleMsg enc s m = some t) :
    t.idle = s.idle ∧ t.running = s.running ∧ published t.out = published s.out ∧
      actionAnswers t.out = actionAnswers s.out := by
  cases m with
  | didOpen u x v => simp only [handleMsg, Option.some.injEq] at hm; subst hm; exact ⟨rfl, rfl, rfl, rfl⟩
  | didChange u cs v =>
    simp only [handleMsg] at hm
    split at hm
    · cases hm; exact ⟨rfl, rfl, rfl, rfl⟩
    · split at hm
      · cases hm
      · cases hm; exact ⟨rfl, rfl, rfl, rfl⟩
  | didClose u =>
    simp only [handleMsg] at hm
    split at hm <;> cases hm
    · exact ⟨rfl, rfl, rfl, rfl⟩
    · exact ⟨rfl, rfl, by simp [ServerState.send, published_append, published],
        by simp [ServerState.send, actionAnswers_append, actionAnswers]⟩
  | didSave u =>
    simp only [handleMsg] at hm
    split at hm <;> cases hm <;> exact ⟨rfl, rfl, rfl, rfl⟩
  | codeAction id u =>
    simp only [handleMsg] at hm
    split at hm <;> cases hm
    · exact ⟨rfl, rfl, rfl, rfl⟩
    · exact ⟨rfl, rfl, by simp [ServerState.send, published_append, published],
        by simp [ServerState.send, actionAnswers_append, actionAnswers]⟩
  | shutdown id =>
    simp only [handleMsg, Option.some.injEq] at hm; subst hm
    exact ⟨rfl, rfl, by simp [ServerState.send, published_append, published],
      by simp [ServerState.send, actionAnswers_append, actionAnswers]⟩
  | otherRequest id =>
    simp only [handleMsg, Option.some.injEq] at hm; subst hm
    exact ⟨rfl, rfl, by simp [ServerState.send, published_append, published],
      by simp [ServerState.send, actionAnswers_append, actionAnswers]⟩
  | badRequest id => simp only [handleMsg, Option.some.injEq] at hm; subst hm; exact ⟨rfl, rfl, rfl, rfl⟩
  | ignored => simp only [handleMsg, Option.some.injEq] at hm; subst hm; exact ⟨rfl, rfl, rfl, rfl⟩

theorem dead_forever {env : ServerEnv} {s t : ServerState} (hc : Continues env s t) (hi : s.idle = 0) (hr : s.running = []) :
    t.idle = 0 ∧ t.running = [] ∧ published t.out = published s.out ∧ actionAnswers t.out = actionAnswers s.out := by
  induction hc with
  | refl => exact ⟨hi, hr, rfl, rfl⟩
  | recv _ _ hm _ ih =>
    obtain ⟨h1, h2, h3, h4⟩ := ih
    obtain ⟨g1, g2, g3, g4⟩ := handle_dead hm
    exact ⟨g1.trans h1, g2.trans h2, g3.trans h3, g4.trans h4⟩
  | work _ hw ih =>
    obtain ⟨h1, h2, -, -⟩ := ih
    exfalso
    cases hw with
    | take _ hi => omega
    | lintOk e _ => rw [h2] at e; simp at e
    | lintErr e _ => rw [h2] at e; simp at e
    | lintPanic e _ => rw [h2] at e; simp at e
    | actionOk e _ => rw [h2] at e; simp at e
    | actionErr e _ => rw [h2] at e; simp at e
    | actionPanic e _ => rw [h2] at e; simp at e

/-- A linter that panics on one text and works on every other. -/
def panicEnv : ServerEnv where
  enc := .utf16
  lint _ t r := if t = ['!'] then r = .panic else r = .ok [echoDiag t]
  actions _ _ _ r := r = .ok []

theorem panic_run (n k : Nat) (hk : k ≤ n) :
    ∃ h s S V, ServerRun panicEnv n h s ∧ Session .utf16 h V S [] ∧ V wUri = some (['!'], 1) ∧ S.length = k ∧
      s.docs wUri = some (TextDoc.new ['!'] 1) ∧ s.queue = [] ∧ s.running = [] ∧ s.idle = n - k ∧ s.out = [] ∧
      s.stopped = false := by
  induction k with
  | zero =>
    refine ⟨_, _, _, _, ServerRun.recv (m := .didOpen wUri ['!'] 1) (ServerRun.init (env := panicEnv) (n := n)) rfl rfl
      (by simp [ServerState.init]), Session.didOpen wUri ['!'] 1 (Session.start (enc := .utf16)), by simp [upd], rfl,
      by simp [setDoc], rfl, rfl, rfl, rfl, rfl⟩
  | succ k ih =>
    obtain ⟨h, s, S, V, hr, hs, hv, hl, hd, hq, hrun, hi, ho, hst⟩ := ih (by omega)
    have hm : handleMsg .utf16 s (.didSave wUri) = some (s.push (.lint ⟨wUri, ['!'], 1⟩)) := by
      simp only [handleMsg, ServerState.snapshot, hd]; rfl
    have r1 := ServerRun.recv hr hst hm (by simp [ServerState.push, hq])
    have r2 := ServerRun.work r1 (.take (t := .lint ⟨wUri, ['!'], 1⟩) (q := []) (by simp [ServerState.push, hq])
      (by simp [ServerState.push]; omega))
    have r3 := ServerRun.work r2 (.lintPanic (a := []) (b := []) (sn := ⟨wUri, ['!'], 1⟩)
      (by simp [ServerState.push, hrun]) (by simp [panicEnv]))
    refine ⟨_, _, _, _, r3, hs.save hv, hv, by simp [hl], ?_, rfl, rfl, ?_, ?_, ?_⟩
    · exact hd
    · show s.idle - 1 = n - (k + 1); omega
    · exact ho
    · exact hst

/-- **C46 is false of a linter that panics**: if linting one text panics, saving it as many times as there are workers
stops the analysis for the whole session: whatever the client sends afterwards, for whatever document, nothing
is ever published and no code action request of an open document is answered, and no error is reported. -/
theorem C46_false_after_panics (n : Nat) :
    ∃ (env : ServerEnv) (bad : Str) (h : List ClientMsg) (s : ServerState) (V S : _),
      (∀ u t r, env.lint u t r → r = .panic → t = bad) ∧ Terminates env ∧
      ServerRun env n h s ∧ Session env.enc h V S [] ∧ S.length = n ∧ s.stopped = false ∧
      ∀ s', Continues env s s' → published s'.out = [] ∧ actionAnswers s'.out = [] := by
  obtain ⟨h, s, S, V, hr, hs, hv, hl, hd, hq, hrun, hi, ho, hst⟩ := panic_run n n (Nat.le_refl n)
  refine ⟨panicEnv, ['!'], h, s, V, S, ?_, ⟨?_, fun _ _ _ => ⟨_, rfl⟩⟩, hr, hs, hl, hst, ?_⟩
  · intro u t r h1 h2
    simp only [panicEnv] at h1
    split at h1
    · assumption
    · rw [h2] at h1; cases h1
  · intro u t
    simp only [panicEnv]
    split <;> exact ⟨_, rfl⟩
  · intro s' hc
    obtain ⟨-, -, h3, h4⟩ := dead_forever hc (by omega) hrun
    rw [ho] at h3 h4
    exact ⟨h3, h4⟩

/-- **C46 is false of malformed requests**: a code action request whose parameters cannot be read changes nothing: it is never
answered. -/
theorem C46_false_bad_request (enc : Enc) (s : ServerState) (id : Nat) : handleMsg enc s (.badRequest id) = some s := rfl

/-- **C46 is false of a failing analysis**: an error while linting changes nothing for the client: the diagnostics of the
previous text stay displayed. -/
theorem C46_false_lint_error :
    ∃ (env : ServerEnv) (h : List ClientMsg) (s : ServerState) (V : _) (u t : Str) (v : Int) (S0 : _) (ds : List LspDiag),
      Terminates env ∧ (∀ u t, ¬ env.lint u t .panic) ∧
      ServerRun env 1 h s ∧ Session env.enc h V (S0 ++ [(u, t, v)]) [] ∧ Quiet s ∧ V u = some (t, v) ∧
      shown u s.out = some ds ∧ ¬ env.lint u t (.ok ds) := by
  let env : ServerEnv := ⟨.utf16, fun _ t r => if t = ['b'] then r = .err else r = .ok [echoDiag t], fun _ _ _ r => r = .ok []⟩
  have r1 := ServerRun.recv (m := .didOpen wUri ['a'] 1) (ServerRun.init (env := env) (n := 1)) rfl rfl (by decide)
  have r2 := ServerRun.recv (m := .didSave wUri) r1 rfl rfl (by decide)
  have r3 := ServerRun.recv r2 rfl (wChange _ rfl) (by decide)
  have r4 := ServerRun.recv (m := .didSave wUri) r3 rfl rfl (by decide)
  have r5 := ServerRun.work r4 (.take rfl (by decide))
  have r6 := ServerRun.work r5 (.lintOk (a := []) (b := []) (ds := [echoDiag ['a']]) rfl (by simp [env, TextDoc.new]))
  have r7 := ServerRun.work r6 (.take rfl (by decide))
  have r8 := ServerRun.work r7 (.lintErr (a := []) (b := []) rfl (by simp [env, TextDoc.new]))
  refine ⟨env, _, _, _, wUri, ['b'], 2, [(wUri, ['a'], 1)], [echoDiag ['a']], ⟨?_, fun _ _ _ => ⟨_, rfl⟩⟩, ?_, r8,
    wSession, ⟨rfl, rfl⟩, by simp [upd], rfl, ?_⟩
  · intro u t; simp only [env]; split <;> exact ⟨_, rfl⟩
  · intro u t hp; simp only [env] at hp; split at hp <;> cases hp
  · intro hp; simp [env] at hp

end Jarl

import Verif.Spec.LspServer
import Verif.Props.LspSync
/-!
# C46: the language server's threads
-/
namespace Jarl
open Spec

/-- What one message does to the client's view. -/
inductive SessStep (enc : Enc) : ClientMsg → (Str → Option (Str × Int)) → List (Str × Str × Int) → List Nat →
    (Str → Option (Str × Int)) → List (Str × Str × Int) → List Nat → Prop
  | didOpen {V S R} (u t v) : SessStep enc (.didOpen u t v) V S R (upd V u (some (t, v))) S R
  | edit {V S R u t w es t'} (v) : V u = some (t, w) → EditRun t es t' → EndToStart es →
      SessStep enc (.didChange u (es.map (PlacedEdit.event enc)) v) V S R (upd V u (some (t', v))) S R
  | didClose {V S R} (u) : SessStep enc (.didClose u) V S R (upd V u none) S R
  | save {V S R u t v} : V u = some (t, v) → SessStep enc (.didSave u) V S R V (S ++ [(u, t, v)]) R
  | saveClosed {V S R u} : V u = none → SessStep enc (.didSave u) V S R V S R
  | codeAction {V S R} (id u) : SessStep enc (.codeAction id u) V S R V S (R ++ [id])
  | shutdown {V S R} (id) : SessStep enc (.shutdown id) V S R V S (R ++ [id])
  | otherRequest {V S R} (id) : SessStep enc (.otherRequest id) V S R V S (R ++ [id])
  | ignored {V S R} : SessStep enc .ignored V S R V S R

theorem Spec.Session.snoc {enc h m V S R} (hs : Session enc (h ++ [m]) V S R) :
    ∃ V0 S0 R0, Session enc h V0 S0 R0 ∧ SessStep enc m V0 S0 R0 V S R := by
  generalize e : h ++ [m] = l at hs
  cases hs with
  | start => simp at e
  | didOpen u t v h0 => have e2 := List.append_inj' e rfl; obtain ⟨rfl, e3⟩ := e2; obtain rfl := List.singleton_inj.mp e3; exact ⟨_, _, _, h0, .didOpen u t v⟩
  | edit v h0 h1 h2 h3 => have e2 := List.append_inj' e rfl; obtain ⟨rfl, e3⟩ := e2; obtain rfl := List.singleton_inj.mp e3; exact ⟨_, _, _, h0, .edit v h1 h2 h3⟩
  | didClose u h0 => have e2 := List.append_inj' e rfl; obtain ⟨rfl, e3⟩ := e2; obtain rfl := List.singleton_inj.mp e3; exact ⟨_, _, _, h0, .didClose u⟩
  | save h0 h1 => have e2 := List.append_inj' e rfl; obtain ⟨rfl, e3⟩ := e2; obtain rfl := List.singleton_inj.mp e3; exact ⟨_, _, _, h0, .save h1⟩
  | saveClosed h0 h1 => have e2 := List.append_inj' e rfl; obtain ⟨rfl, e3⟩ := e2; obtain rfl := List.singleton_inj.mp e3; exact ⟨_, _, _, h0, .saveClosed h1⟩
  | codeAction id u h0 => have e2 := List.append_inj' e rfl; obtain ⟨rfl, e3⟩ := e2; obtain rfl := List.singleton_inj.mp e3; exact ⟨_, _, _, h0, .codeAction id u⟩
  | shutdown id h0 => have e2 := List.append_inj' e rfl; obtain ⟨rfl, e3⟩ := e2; obtain rfl := List.singleton_inj.mp e3; exact ⟨_, _, _, h0, .shutdown id⟩
  | otherRequest id h0 => have e2 := List.append_inj' e rfl; obtain ⟨rfl, e3⟩ := e2; obtain rfl := List.singleton_inj.mp e3; exact ⟨_, _, _, h0, .otherRequest id⟩
  | ignored h0 => have e2 := List.append_inj' e rfl; obtain ⟨rfl, e3⟩ := e2; obtain rfl := List.singleton_inj.mp e3; exact ⟨_, _, _, h0, .ignored⟩

/-- The server's documents are the client's. -/
def DocsOk (s : ServerState) (V : Str → Option (Str × Int)) : Prop :=
  ∀ u, s.docs u = (V u).map (fun p => TextDoc.new p.1 p.2)

theorem snapshot_eq {s : ServerState} {V} (h : DocsOk s V) (u : Str) :
    s.snapshot u = (V u).map (fun p => ⟨u, p.1, p.2⟩) := by
  unfold ServerState.snapshot
  rw [h u]
  cases V u <;> rfl

theorem docsOk_upd {s : ServerState} {V} (h : DocsOk s V) (u : Str) (x : Option (Str × Int)) :
    ∀ w, setDoc s.docs u (x.map (fun p => TextDoc.new p.1 p.2)) w = (upd V u x w).map (fun p => TextDoc.new p.1 p.2) := by
  intro w
  unfold setDoc upd
  split
  · rfl
  · exact h w

/-- What handling a message does to the server, given the client's view. -/
theorem handle_step {enc : Enc} {s : ServerState} {m : ClientMsg} {V V' S S' R R'} (hd : DocsOk s V)
    (hs : SessStep enc m V S R V' S' R') :
    ∃ s', handleMsg enc s m = some s' ∧ DocsOk s' V' ∧ s'.running = s.running ∧ s'.idle = s.idle ∧
      ((s'.queue = s.queue ∧ S' = S ∧
         ((s'.out = s.out ∧ R' = R) ∨
          (∃ u, s'.out = s.out ++ [.publish u [] none] ∧ R' = R) ∨
          (∃ id, (s'.out = s.out ++ [.error id] ∨ s'.out = s.out ++ [.ack id]) ∧ R' = R ++ [id]))) ∨
       (∃ u t v, s'.queue = s.queue ++ [.lint ⟨u, t, v⟩] ∧ s'.out = s.out ∧ S' = S ++ [(u, t, v)] ∧ R' = R) ∨
       (∃ sn id, s'.queue = s.queue ++ [.action sn id] ∧ s'.out = s.out ∧ S' = S ∧ R' = R ++ [id])) := by
  cases hs with
  | didOpen u t v =>
    exact ⟨_, rfl, docsOk_upd hd u (some (t, v)), rfl, rfl, .inl ⟨rfl, rfl, .inl ⟨rfl, rfl⟩⟩⟩
  | edit v h1 h2 h3 =>
    rename_i u t w es t'
    have hdoc : s.docs u = some (TextDoc.new t w) := by rw [hd u, h1]; rfl
    have hm : handleMsg enc s (.didChange u (es.map (PlacedEdit.event enc)) v) =
        some { s with docs := setDoc s.docs u (some (TextDoc.new t' v)) } := by
      simp only [handleMsg, hdoc, C42_end_to_start enc w v t t' es h2 h3]
    exact ⟨_, hm, docsOk_upd hd u (some (t', v)), rfl, rfl, .inl ⟨rfl, rfl, .inl ⟨rfl, rfl⟩⟩⟩
  | didClose u =>
    cases hv : V u with
    | none =>
      have hdoc : s.docs u = none := by rw [hd u, hv]; rfl
      have hm : handleMsg enc s (.didClose u) = some s := by simp only [handleMsg, hdoc]
      refine ⟨_, hm, ?_, rfl, rfl, .inl ⟨rfl, rfl, .inl ⟨rfl, rfl⟩⟩⟩
      intro w
      unfold upd
      split
      · rename_i e; rw [e, hdoc]; rfl
      · exact hd w
    | some p =>
      have hdoc : s.docs u = some (TextDoc.new p.1 p.2) := by rw [hd u, hv]; rfl
      have hm : handleMsg enc s (.didClose u) =
          some (({ s with docs := setDoc s.docs u none } : ServerState).send (.publish u [] none)) := by
        simp only [handleMsg, hdoc]
      exact ⟨_, hm, docsOk_upd hd u none, rfl, rfl, .inl ⟨rfl, rfl, .inr (.inl ⟨u, rfl, rfl⟩)⟩⟩
  | save h1 =>
    rename_i u t v
    have : s.snapshot u = some ⟨u, t, v⟩ := by rw [snapshot_eq hd, h1]; rfl
    have hm : handleMsg enc s (.didSave u) = some (s.push (.lint ⟨u, t, v⟩)) := by simp only [handleMsg, this]
    exact ⟨_, hm, hd, rfl, rfl, .inr (.inl ⟨u, t, v, rfl, rfl, rfl, rfl⟩)⟩
  | saveClosed h1 =>
    rename_i u
    have : s.snapshot u = none := by rw [snapshot_eq hd, h1]; rfl
    have hm : handleMsg enc s (.didSave u) = some s := by simp only [handleMsg, this]
    exact ⟨_, hm, hd, rfl, rfl, .inl ⟨rfl, rfl, .inl ⟨rfl, rfl⟩⟩⟩
  | codeAction id u =>
    cases h : s.snapshot u with
    | none =>
      have hm : handleMsg enc s (.codeAction id u) = some (s.send (.error id)) := by simp only [handleMsg, h]
      exact ⟨_, hm, hd, rfl, rfl, .inl ⟨rfl, rfl, .inr (.inr ⟨id, .inl rfl, rfl⟩)⟩⟩
    | some sn =>
      have hm : handleMsg enc s (.codeAction id u) = some (s.push (.action sn id)) := by simp only [handleMsg, h]
      exact ⟨_, hm, hd, rfl, rfl, .inr (.inr ⟨sn, id, rfl, rfl, rfl, rfl⟩)⟩
  | shutdown id => exact ⟨_, rfl, hd, rfl, rfl, .inl ⟨rfl, rfl, .inr (.inr ⟨id, .inr rfl, rfl⟩)⟩⟩
  | otherRequest id => exact ⟨_, rfl, hd, rfl, rfl, .inl ⟨rfl, rfl, .inr (.inr ⟨id, .inl rfl, rfl⟩)⟩⟩
  | ignored => exact ⟨_, rfl, hd, rfl, rfl, .inl ⟨rfl, rfl, .inl ⟨rfl, rfl⟩⟩⟩

/-- Invariant of every run: documents in sync, tasks are saves, published diagnostics are lints of saves. -/
structure ServerInv (env : ServerEnv) (s : ServerState) (V : Str → Option (Str × Int)) (S : List (Str × Str × Int)) :
    Prop where
  docs : DocsOk s V
  tasks : ∀ sn, Task.lint sn ∈ s.running ++ s.queue → (sn.uri, sn.content, sn.version) ∈ S
  out : ∀ u ds v, ServerMsg.publish u ds (some v) ∈ s.out → ∃ t, (u, t, v) ∈ S ∧ env.lint u t (.ok ds)
  cleared : ∀ u ds, ServerMsg.publish u ds none ∈ s.out → ds = []

theorem workStep_inv {env : ServerEnv} {s s' : ServerState} {V S} (hw : WorkStep env s s') (h : ServerInv env s V S) :
    ServerInv env s' V S := by
  have hmem : ∀ {a b : List Task} {t x : Task}, s.running = a ++ t :: b → x ∈ a ++ b ++ s.queue → x ∈ s.running ++ s.queue := by
    intro a b t x e hx
    rw [e]
    simp only [List.mem_append, List.mem_cons] at hx ⊢
    rcases hx with (hx | hx) | hx
    · exact .inl (.inl hx)
    · exact .inl (.inr (.inr hx))
    · exact .inr hx
  cases hw with
  | take e hi =>
    refine ⟨h.docs, ?_, h.out, h.cleared⟩
    intro sn hsn
    apply h.tasks
    rw [e]
    simpa using hsn
  | lintOk e hl =>
    rename_i a sn b ds
    refine ⟨h.docs, fun x hx => h.tasks x (hmem e hx), ?_, ?_⟩
    · intro u ds' v hp
      simp only [List.mem_append, List.mem_singleton, ServerMsg.publish.injEq, Option.some.injEq] at hp
      rcases hp with hp | ⟨rfl, rfl, rfl⟩
      · exact h.out _ _ _ hp
      · exact ⟨sn.content, h.tasks sn (by rw [e]; simp), hl⟩
    · intro u ds' hp
      simp at hp
      exact h.cleared _ _ hp
  | lintErr e hl => exact ⟨h.docs, fun x hx => h.tasks x (hmem e hx), h.out, h.cleared⟩
  | lintPanic e hl => exact ⟨h.docs, fun x hx => h.tasks x (hmem e hx), h.out, h.cleared⟩
  | actionOk e hl =>
    exact ⟨h.docs, fun x hx => h.tasks x (hmem e hx), fun u ds v hp => h.out u ds v (by simpa using hp),
      fun u ds hp => h.cleared u ds (by simpa using hp)⟩
  | actionErr e hl =>
    exact ⟨h.docs, fun x hx => h.tasks x (hmem e hx), fun u ds v hp => h.out u ds v (by simpa using hp),
      fun u ds hp => h.cleared u ds (by simpa using hp)⟩
  | actionPanic e hl => exact ⟨h.docs, fun x hx => h.tasks x (hmem e hx), h.out, h.cleared⟩

theorem run_inv {env : ServerEnv} {n : Nat} {h : List ClientMsg} {s : ServerState} (hr : ServerRun env n h s) :
    ∀ V S R, Session env.enc h V S R → ServerInv env s V S := by
  induction hr with
  | init =>
    intro V S R hs
    generalize e : ([] : List ClientMsg) = l at hs
    cases hs
    · exact ⟨fun _ => rfl, by simp [ServerState.init], by simp [ServerState.init], by simp [ServerState.init]⟩
    all_goals simp at e
  | recv _ _ hm _ ih =>
    intro V S R hs
    obtain ⟨V0, S0, R0, h0, hst⟩ := hs.snoc
    have hi := ih _ _ _ h0
    obtain ⟨s2, hs2, hd, hrun, -, hcase⟩ := handle_step hi.docs hst
    rw [hm] at hs2
    cases hs2
    rcases hcase with ⟨hq, rfl, ho⟩ | ⟨u, t, v, hq, ho, rfl, -⟩ | ⟨sn, id, hq, ho, rfl, -⟩
    · refine ⟨hd, by rw [hrun, hq]; exact hi.tasks, ?_, ?_⟩
      · intro u ds v hp
        rcases ho with ⟨ho, -⟩ | ⟨w, ho, -⟩ | ⟨id, ho | ho, -⟩ <;> rw [ho] at hp <;>
          exact hi.out u ds v (by simpa using hp)
      · intro u ds hp
        rcases ho with ⟨ho, -⟩ | ⟨w, ho, -⟩ | ⟨id, ho | ho, -⟩ <;> rw [ho] at hp
        · exact hi.cleared _ _ hp
        · simp only [List.mem_append, List.mem_singleton, ServerMsg.publish.injEq] at hp
          rcases hp with hp | ⟨-, rfl, -⟩
          · exact hi.cleared _ _ hp
          · rfl
        · exact hi.cleared u ds (by simpa using hp)
        · exact hi.cleared u ds (by simpa using hp)
    · refine ⟨hd, ?_, ?_, by rw [ho]; exact hi.cleared⟩
      · intro sn hsn
        rw [hrun, hq] at hsn
        simp only [← List.append_assoc, List.mem_append, List.mem_singleton, Task.lint.injEq] at hsn
        rcases hsn with hsn | rfl
        · exact List.mem_append_left _ (hi.tasks sn (by simpa using hsn))
        · simp
      · intro u' ds v' hp
        rw [ho] at hp
        obtain ⟨t', h1, h2⟩ := hi.out _ _ _ hp
        exact ⟨t', List.mem_append_left _ h1, h2⟩
    · refine ⟨hd, ?_, by rw [ho]; exact hi.out, by rw [ho]; exact hi.cleared⟩
      intro x hx
      rw [hrun, hq] at hx
      exact hi.tasks x (by simpa using hx)
  | work _ hw ih =>
    intro V S R hs
    exact workStep_inv hw (ih _ _ _ hs)

/-- **C46** (what is published). Whatever the order in which the threads run: diagnostics published with a version are the
diagnostics of the text the document had in the editor when it was saved with that version; the others
clear a document. -/
theorem C46_published (env : ServerEnv) (n : Nat) (h : List ClientMsg) (s : ServerState) (V S R)
    (hr : ServerRun env n h s) (hs : Session env.enc h V S R) :
    (∀ u ds v, ServerMsg.publish u ds (some v) ∈ s.out → ∃ text, (u, text, v) ∈ S ∧ env.lint u text (.ok ds)) ∧
    (∀ u ds, ServerMsg.publish u ds none ∈ s.out → ds = []) :=
  ⟨(run_inv hr V S R hs).out, (run_inv hr V S R hs).cleared⟩

/-- **C46** (no crash of the main loop). The main thread never panics on a message of such a session. -/
theorem C46_main_loop_survives (env : ServerEnv) (n : Nat) (h : List ClientMsg) (m : ClientMsg) (s : ServerState) (V S R)
    (hr : ServerRun env n h s) (hs : Session env.enc (h ++ [m]) V S R) :
    ∃ s', handleMsg env.enc s m = some s' := by
  obtain ⟨V0, S0, R0, h0, hst⟩ := hs.snoc
  obtain ⟨s', h1, -⟩ := handle_step (run_inv hr _ _ _ h0).docs hst
  exact ⟨s', h1⟩

/-- The saves among tasks. -/
def lintsOf : List Task → List (Str × Int)
  | [] => []
  | .lint sn :: ts => (sn.uri, sn.version) :: lintsOf ts
  | .action .. :: ts => lintsOf ts

/-- The requests among tasks. -/
def actionsOf : List Task → List Nat
  | [] => []
  | .lint _ :: ts => actionsOf ts
  | .action _ id :: ts => id :: actionsOf ts

theorem lintsOf_append (a b : List Task) : lintsOf (a ++ b) = lintsOf a ++ lintsOf b := by
  induction a with
  | nil => rfl
  | cons t ts ih => cases t <;> simp [lintsOf, ih]

theorem actionsOf_append (a b : List Task) : actionsOf (a ++ b) = actionsOf a ++ actionsOf b := by
  induction a with
  | nil => rfl
  | cons t ts ih => cases t <;> simp [actionsOf, ih]

theorem published_append (a b : List ServerMsg) : published (a ++ b) = published a ++ published b := by
  induction a with
  | nil => rfl
  | cons m ms ih =>
    cases m with
    | publish u ds v => cases v <;> simp [published, ih]
    | _ => simp [published, ih]

theorem answered_append (a b : List ServerMsg) : answered (a ++ b) = answered a ++ answered b := by
  induction a with
  | nil => rfl
  | cons m ms ih => cases m <;> simp [answered, ih]

/-- What is done and what remains. -/
structure CountInv (s : ServerState) (n : Nat) (S : List (Str × Str × Int)) (R : List Nat) : Prop where
  lints : (published s.out ++ lintsOf (s.running ++ s.queue)).Perm (S.map (fun x => (x.1, x.2.2)))
  acts : (answered s.out ++ actionsOf (s.running ++ s.queue)).Perm R
  workers : s.idle + s.running.length = n

/-- No task fails. -/
structure NoFailure (env : ServerEnv) : Prop where
  lint : ∀ u t r, env.lint u t r → ∃ ds, r = .ok ds
  actions : ∀ u t id, ¬ env.actions u t id .panic

theorem perm_move {α} {p a x b q : List α} {S : List α} (h : (p ++ (a ++ (x ++ b) ++ q)).Perm S) :
    (p ++ x ++ (a ++ b ++ q)).Perm S := by
  refine List.Perm.trans ?_ h
  simp only [List.append_assoc]
  refine List.Perm.append_left p ?_
  rw [← List.append_assoc x, ← List.append_assoc a x]
  exact List.Perm.append_right _ List.perm_append_comm

theorem workStep_count {env : ServerEnv} (hn : NoFailure env) {s s' : ServerState} {n S R} (hw : WorkStep env s s')
    (h : CountInv s n S R) : CountInv s' n S R := by
  obtain ⟨h1, h2, h3⟩ := h
  cases hw with
  | take e hi =>
    rw [e] at h1 h2
    refine ⟨by simpa using h1, by simpa using h2, ?_⟩
    simp
    omega
  | lintOk e hl =>
    rename_i a sn b ds
    rw [e] at h1 h2 h3
    refine ⟨?_, ?_, ?_⟩
    · simp only [published_append, published]
      simp only [lintsOf_append, lintsOf] at h1 ⊢
      exact perm_move (x := [(sn.uri, sn.version)]) h1
    · simp only [answered_append, answered, List.append_nil]
      simpa [actionsOf_append, actionsOf] using h2
    · simp at h3 ⊢; omega
  | lintErr e hl => obtain ⟨ds, hc⟩ := hn.lint _ _ _ hl; cases hc
  | lintPanic e hl => obtain ⟨ds, hc⟩ := hn.lint _ _ _ hl; cases hc
  | actionOk e hl =>
    rename_i a sn id b as
    rw [e] at h1 h2 h3
    refine ⟨?_, ?_, ?_⟩
    · simp only [published_append, published, List.append_nil]
      simpa [lintsOf_append, lintsOf] using h1
    · simp only [answered_append, answered]
      simp only [actionsOf_append, actionsOf] at h2 ⊢
      exact perm_move (x := [id]) h2
    · simp at h3 ⊢; omega
  | actionErr e hl =>
    rename_i a sn id b
    rw [e] at h1 h2 h3
    refine ⟨?_, ?_, ?_⟩
    · simp only [published_append, published, List.append_nil]
      simpa [lintsOf_append, lintsOf] using h1
    · simp only [answered_append, answered]
      simp only [actionsOf_append, actionsOf] at h2 ⊢
      exact perm_move (x := [id]) h2
    · simp at h3 ⊢; omega
  | actionPanic e hl => exact absurd hl (hn.actions _ _ _)

theorem run_count {env : ServerEnv} (hn : NoFailure env) {n : Nat} {h : List ClientMsg} {s : ServerState}
    (hr : ServerRun env n h s) : ∀ V S R, Session env.enc h V S R → CountInv s n S R := by
  induction hr with
  | init =>
    intro V S R hs
    generalize e : ([] : List ClientMsg) = l at hs
    cases hs
    · exact ⟨.refl _, .refl _, rfl⟩
    all_goals simp at e
  | @recv h s m s' hr0 _ hm _ ih =>
    intro V S R hs
    obtain ⟨V0, S0, R0, h0, hst⟩ := hs.snoc
    obtain ⟨h1, h2, h3⟩ := ih _ _ _ h0
    obtain ⟨s2, hs2, hd, hrun, hidle, hcase⟩ := handle_step (run_inv hr0 _ _ _ h0).docs hst
    rw [hm] at hs2
    cases hs2
    rcases hcase with ⟨hq, rfl, ho⟩ | ⟨u, t, v, hq, ho, rfl, rfl⟩ | ⟨sn, id, hq, ho, rfl, rfl⟩
    · rw [← hq, ← hrun] at h1 h2
      rcases ho with ⟨ho, rfl⟩ | ⟨w, ho, rfl⟩ | ⟨id, ho, rfl⟩
      · exact ⟨by rw [ho]; exact h1, by rw [ho]; exact h2, by rw [hrun, hidle]; exact h3⟩
      · refine ⟨?_, ?_, by rw [hrun, hidle]; exact h3⟩
        · rw [ho, published_append]; simpa [published] using h1
        · rw [ho, answered_append]; simpa [answered] using h2
      · have hp : published s'.out = published s.out := by
          rcases ho with ho | ho <;> rw [ho, published_append] <;> exact List.append_nil _
        have ha : answered s'.out = answered s.out ++ [id] := by
          rcases ho with ho | ho <;> rw [ho, answered_append] <;> rfl
        refine ⟨by rw [hp]; exact h1, ?_, by rw [hrun, hidle]; exact h3⟩
        rw [ha, List.append_assoc]
        exact ((List.Perm.append_left _ List.perm_append_comm).trans (by rw [← List.append_assoc])).trans
          (List.Perm.append_right _ h2)
    · refine ⟨?_, ?_, by rw [hrun, hidle]; exact h3⟩
      · rw [ho, hq, hrun, ← List.append_assoc, lintsOf_append, ← List.append_assoc, List.map_append]
        exact List.Perm.append_right _ h1
      · rw [ho, hq, hrun, ← List.append_assoc, actionsOf_append]
        simpa [actionsOf] using h2
    · refine ⟨?_, ?_, by rw [hrun, hidle]; exact h3⟩
      · rw [ho, hq, hrun, ← List.append_assoc, lintsOf_append]
        simpa [lintsOf] using h1
      · rw [ho, hq, hrun, ← List.append_assoc, actionsOf_append, ← List.append_assoc]
        exact List.Perm.append_right _ h2
  | work _ hw ih =>
    intro V S R hs
    exact workStep_count hn hw (ih _ _ _ hs)

/-- **C46** (nothing is lost or repeated). If no task fails, then when the workers have nothing left to do, every save of an open
document has been published exactly once and every request answered exactly once, whatever the order in which the
threads ran. -/
theorem C46_everything_done (env : ServerEnv) (n : Nat) (h : List ClientMsg) (s : ServerState) (V S R)
    (hn : NoFailure env) (hr : ServerRun env n h s) (hs : Session env.enc h V S R) (hq : Quiet s) :
    (published s.out).Perm (S.map (fun x => (x.1, x.2.2))) ∧ (answered s.out).Perm R := by
  obtain ⟨h1, h2, -⟩ := run_count hn hr _ _ _ hs
  rw [hq.1, hq.2] at h1 h2
  exact ⟨by simpa [lintsOf] using h1, by simpa [actionsOf] using h2⟩

/-! ## The workers finish -/

/-- `k` steps of the workers. -/
inductive WorkSteps (env : ServerEnv) : Nat → ServerState → ServerState → Prop
  | refl (s) : WorkSteps env 0 s s
  | step {k s t u} : WorkSteps env k s t → WorkStep env t u → WorkSteps env (k + 1) s u

theorem workStep_measure {env : ServerEnv} {s t : ServerState} (h : WorkStep env s t) :
    2 * t.queue.length + t.running.length + 1 ≤ 2 * s.queue.length + s.running.length := by
  cases h with
  | take e hi => rw [e]; simp; omega
  | lintOk e _ => rw [e]; simp; omega
  | lintErr e _ => rw [e]; simp; omega
  | lintPanic e _ => rw [e]; simp; omega
  | actionOk e _ => rw [e]; simp; omega
  | actionErr e _ => rw [e]; simp; omega
  | actionPanic e _ => rw [e]; simp; omega

theorem workSteps_measure {env : ServerEnv} {k : Nat} {s t : ServerState} (h : WorkSteps env k s t) :
    2 * t.queue.length + t.running.length + k ≤ 2 * s.queue.length + s.running.length := by
  induction h with
  | refl => omega
  | step _ hw ih => have := workStep_measure hw; omega

theorem workSteps_run {env : ServerEnv} {n k : Nat} {h : List ClientMsg} {s t : ServerState} (hr : ServerRun env n h s)
    (hk : WorkSteps env k s t) : ServerRun env n h t := by
  induction hk with
  | refl => exact hr
  | step _ hw ih => exact .work (ih hr) hw

/-- Every lint and every code action request has an outcome (it terminates). -/
structure Terminates (env : ServerEnv) : Prop where
  lint : ∀ u t, ∃ r, env.lint u t r
  actions : ∀ u t id, ∃ r, env.actions u t id r

theorem step_of_task {env : ServerEnv} (ht : Terminates env) {s : ServerState} {a b : List Task} {t : Task}
    (e : s.running = a ++ t :: b) : ∃ s', WorkStep env s s' := by
  cases t with
  | lint sn =>
    obtain ⟨r, hr⟩ := ht.lint sn.uri sn.content
    cases r with
    | ok ds => exact ⟨_, .lintOk e hr⟩
    | err => exact ⟨_, .lintErr e hr⟩
    | panic => exact ⟨_, .lintPanic e hr⟩
  | action sn id =>
    obtain ⟨r, hr⟩ := ht.actions sn.uri sn.content id
    cases r with
    | ok ds => exact ⟨_, .actionOk e hr⟩
    | err => exact ⟨_, .actionErr e hr⟩
    | panic => exact ⟨_, .actionPanic e hr⟩

/-- **C46** (no task waits for ever). If every task terminates without failing and there is a worker, then as long as something is
waiting or running the workers can go on, they stop after a bounded number of steps whatever they do, and then
everything has been published and answered. -/
theorem C46_workers_finish (env : ServerEnv) (n : Nat) (h : List ClientMsg) (s : ServerState) (V S R)
    (hn : NoFailure env) (ht : Terminates env) (hpos : 0 < n) (hr : ServerRun env n h s)
    (hs : Session env.enc h V S R) :
    (∀ k s', WorkSteps env k s s' → k ≤ 2 * s.queue.length + s.running.length) ∧
    (∀ k s', WorkSteps env k s s' → (∃ s'', WorkStep env s' s'') ∨
      (Quiet s' ∧ (published s'.out).Perm (S.map (fun x => (x.1, x.2.2))) ∧ (answered s'.out).Perm R)) := by
  refine ⟨fun k s' hk => by have := workSteps_measure hk; omega, fun k s' hk => ?_⟩
  have hr' := workSteps_run hr hk
  have hc := (run_count hn hr' _ _ _ hs).workers
  cases hrun : s'.running with
  | cons t b => exact .inl (step_of_task ht (a := []) hrun)
  | nil =>
    cases hqu : s'.queue with
    | nil => exact .inr ⟨⟨hqu, hrun⟩, C46_everything_done env n h s' V S R hn hr' hs ⟨hqu, hrun⟩⟩
    | cons t q =>
      rw [hrun] at hc
      exact .inl ⟨_, .take hqu (by simp at hc; omega)⟩

/-! ## One worker: order -/

/-- The published diagnostics, with their contents. -/
def pubs : List ServerMsg → List (Str × List LspDiag × Int)
  | [] => []
  | .publish u ds (some v) :: ms => (u, ds, v) :: pubs ms
  | _ :: ms => pubs ms

theorem pubs_append (a b : List ServerMsg) : pubs (a ++ b) = pubs a ++ pubs b := by
  induction a with
  | nil => rfl
  | cons m ms ih =>
    cases m with
    | publish u ds v => cases v <;> simp [pubs, ih]
    | _ => simp [pubs, ih]

/-- Published diagnostics are those of the saves, one by one. -/
inductive PubMatch (env : ServerEnv) : List (Str × List LspDiag × Int) → List (Str × Str × Int) → Prop
  | nil : PubMatch env [] []
  | cons {u ds v t ps S} : env.lint u t (.ok ds) → PubMatch env ps S →
      PubMatch env ((u, ds, v) :: ps) ((u, t, v) :: S)

theorem PubMatch.snoc {env : ServerEnv} {ps S u ds v t} (h : PubMatch env ps S) (hl : env.lint u t (.ok ds)) :
    PubMatch env (ps ++ [(u, ds, v)]) (S ++ [(u, t, v)]) := by
  induction h with
  | nil => exact .cons hl .nil
  | cons h1 _ ih => exact .cons h1 ih

/-- The lint tasks as saves. -/
def savesOf : List Task → List (Str × Str × Int)
  | [] => []
  | .lint sn :: ts => (sn.uri, sn.content, sn.version) :: savesOf ts
  | .action .. :: ts => savesOf ts

theorem savesOf_append (a b : List Task) : savesOf (a ++ b) = savesOf a ++ savesOf b := by
  induction a with
  | nil => rfl
  | cons t ts ih => cases t <;> simp [savesOf, ih]

/-- Invariant with one worker. -/
def OrderInv (env : ServerEnv) (s : ServerState) (S : List (Str × Str × Int)) : Prop :=
  ∃ S1, PubMatch env (pubs s.out) S1 ∧ S = S1 ++ savesOf (s.running ++ s.queue)

theorem single_running {a b : List Task} {t : Task} (h : (a ++ t :: b).length ≤ 1) : a = [] ∧ b = [] := by
  simp at h
  constructor
  · exact List.eq_nil_of_length_eq_zero (by omega)
  · exact List.eq_nil_of_length_eq_zero (by omega)

theorem workStep_order {env : ServerEnv} (hn : NoFailure env) {s s' : ServerState} {S} (hw : WorkStep env s s')
    (h1 : s.running.length ≤ 1) (h : OrderInv env s S) : OrderInv env s' S := by
  obtain ⟨S1, hp, rfl⟩ := h
  cases hw with
  | take e hi =>
    refine ⟨S1, hp, ?_⟩
    rw [e]
    simp
  | lintOk e hl =>
    rename_i a sn b ds
    rw [e] at h1 ⊢
    obtain ⟨rfl, rfl⟩ := single_running h1
    refine ⟨S1 ++ [(sn.uri, sn.content, sn.version)], ?_, ?_⟩
    · simp only [pubs_append, pubs]
      exact hp.snoc hl
    · simp [savesOf]
  | lintErr e hl => obtain ⟨ds, hc⟩ := hn.lint _ _ _ hl; cases hc
  | lintPanic e hl => obtain ⟨ds, hc⟩ := hn.lint _ _ _ hl; cases hc
  | actionOk e hl =>
    refine ⟨S1, ?_, ?_⟩
    · simp only [pubs_append, pubs, List.append_nil]; exact hp
    · rw [e]; simp [savesOf_append, savesOf]
  | actionErr e hl =>
    refine ⟨S1, ?_, ?_⟩
    · simp only [pubs_append, pubs, List.append_nil]; exact hp
    · rw [e]; simp [savesOf_append, savesOf]
  | actionPanic e hl => exact absurd hl (hn.actions _ _ _)

theorem run_order {env : ServerEnv} (hn : NoFailure env) {h : List ClientMsg} {s : ServerState}
    (hr : ServerRun env 1 h s) : ∀ V S R, Session env.enc h V S R → OrderInv env s S := by
  induction hr with
  | init =>
    intro V S R hs
    generalize e : ([] : List ClientMsg) = l at hs
    cases hs
    · exact ⟨[], .nil, rfl⟩
    all_goals simp at e
  | @recv h s m s' hr0 _ hm _ ih =>
    intro V S R hs
    obtain ⟨V0, S0, R0, h0, hst⟩ := hs.snoc
    obtain ⟨S1, hp, rfl⟩ := ih _ _ _ h0
    obtain ⟨s2, hs2, hd, hrun, hidle, hcase⟩ := handle_step (run_inv hr0 _ _ _ h0).docs hst
    rw [hm] at hs2
    cases hs2
    rcases hcase with ⟨hq, rfl, ho⟩ | ⟨u, t, v, hq, ho, rfl, rfl⟩ | ⟨sn, id, hq, ho, rfl, rfl⟩
    · refine ⟨S1, ?_, by rw [hq, hrun]⟩
      have : pubs s'.out = pubs s.out := by
        rcases ho with ⟨ho, rfl⟩ | ⟨w, ho, rfl⟩ | ⟨id, ho | ho, rfl⟩ <;> rw [ho] <;> simp [pubs_append, pubs]
      rw [this]; exact hp
    · refine ⟨S1, by rw [ho]; exact hp, ?_⟩
      rw [hrun, hq]
      simp [savesOf_append, savesOf]
    · refine ⟨S1, by rw [ho]; exact hp, ?_⟩
      rw [hrun, hq]
      simp [savesOf_append, savesOf]
  | work hr0 hw ih =>
    intro V S R hs
    have hc := (run_count hn hr0 _ _ _ hs).workers
    exact workStep_order hn hw (by omega) (ih _ _ _ hs)

theorem pubMatch_published {env : ServerEnv} {out : List ServerMsg} {S} (h : PubMatch env (pubs out) S) :
    published out = S.map (fun x => (x.1, x.2.2)) := by
  induction out generalizing S with
  | nil => cases h; rfl
  | cons m ms ih =>
    cases m with
    | publish u ds v =>
      cases v with
      | none => exact ih (S := S) h
      | some v =>
        simp only [pubs] at h
        cases h with
        | cons _ h2 => simp only [published, List.map_cons]; rw [ih h2]
    | _ => exact ih (S := S) h

theorem shown_none {env : ServerEnv} {u : Str} {out : List ServerMsg} {S} (h : PubMatch env (pubs out) S)
    (hc : ∀ w ds, ServerMsg.publish w ds none ∉ out) (hu : ∀ x ∈ S, x.1 ≠ u) : shown u out = none := by
  induction out generalizing S with
  | nil => rfl
  | cons m ms ih =>
    have hc' : ∀ w ds, ServerMsg.publish w ds none ∉ ms := fun w ds hm => hc w ds (List.mem_cons_of_mem _ hm)
    cases m with
    | publish w ds v =>
      cases v with
      | none => exact absurd List.mem_cons_self (hc w ds)
      | some v =>
        simp only [pubs] at h
        cases h with
        | cons _ h2 =>
          simp only [shown, ih h2 hc' (fun x hx => hu x (List.mem_cons_of_mem _ hx))]
          exact if_neg (hu _ List.mem_cons_self)
    | _ => exact ih (S := S) h hc' hu

theorem shown_last {env : ServerEnv} {u t : Str} {v : Int} {out : List ServerMsg} {S1 S2}
    (h : PubMatch env (pubs out) (S1 ++ (u, t, v) :: S2))
    (hc : ∀ w ds, ServerMsg.publish w ds none ∉ out) (hu : ∀ x ∈ S2, x.1 ≠ u) :
    ∃ ds, shown u out = some ds ∧ env.lint u t (.ok ds) := by
  induction out generalizing S1 with
  | nil => generalize e : S1 ++ (u, t, v) :: S2 = l at h; cases h; simp at e
  | cons m ms ih =>
    have hc' : ∀ w ds, ServerMsg.publish w ds none ∉ ms := fun w ds hm => hc w ds (List.mem_cons_of_mem _ hm)
    cases m with
    | publish w ds x =>
      cases x with
      | none => exact absurd List.mem_cons_self (hc w ds)
      | some x =>
        simp only [pubs] at h
        cases S1 with
        | nil =>
          cases h with
          | cons hl h2 =>
            refine ⟨ds, ?_, hl⟩
            simp only [shown, shown_none h2 hc' hu, if_true]
        | cons y S1 =>
          cases h with
          | cons hl h2 =>
            obtain ⟨ds', h3, h4⟩ := ih h2 hc'
            exact ⟨ds', by simp only [shown, h3], h4⟩
    | _ => exact ih (S1 := S1) h hc'

theorem run_no_clear {env : ServerEnv} {n : Nat} {h : List ClientMsg} {s : ServerState} (hr : ServerRun env n h s) :
    (∀ u, ClientMsg.didClose u ∉ h) → ∀ w ds, ServerMsg.publish w ds none ∉ s.out := by
  induction hr with
  | init => intro _ w ds hm; simp [ServerState.init] at hm
  | @recv h s m s' _ _ hm _ ih =>
    intro hcl w ds hmem
    have ih := ih (fun u hu => hcl u (List.mem_append_left _ hu)) w ds
    cases m with
    | didOpen u t v => simp only [handleMsg, Option.some.injEq] at hm; subst hm; exact ih hmem
    | didChange u cs v =>
      simp only [handleMsg] at hm
      split at hm
      · cases hm; exact ih hmem
      · split at hm
        · cases hm
        · cases hm; exact ih hmem
    | didClose u => exact hcl u (by simp)
    | didSave u =>
      simp only [handleMsg] at hm
      split at hm <;> cases hm <;> exact ih hmem
    | codeAction id u =>
      simp only [handleMsg] at hm
      split at hm <;> cases hm
      · exact ih hmem
      · simp [ServerState.send] at hmem; exact ih hmem
    | shutdown id => simp only [handleMsg, Option.some.injEq] at hm; subst hm; simp [ServerState.send] at hmem; exact ih hmem
    | otherRequest id => simp only [handleMsg, Option.some.injEq] at hm; subst hm; simp [ServerState.send] at hmem; exact ih hmem
    | badRequest id => simp only [handleMsg, Option.some.injEq] at hm; subst hm; exact ih hmem
    | ignored => simp only [handleMsg, Option.some.injEq] at hm; subst hm; exact ih hmem
  | work _ hw ih =>
    intro hcl w ds hmem
    have ih := ih hcl w ds
    cases hw <;> simp at hmem <;> exact ih hmem

/-- **C46** (one worker). With a single worker and no failing task, diagnostics are published in the order of the saves, and
if no document is closed, what the editor finally displays for a document are the diagnostics of its text at its
last save. Neither holds with more workers or when documents are closed: see `C46_false_…`. -/
theorem C46_single_worker (env : ServerEnv) (h : List ClientMsg) (s : ServerState) (V S R)
    (hn : NoFailure env) (hr : ServerRun env 1 h s) (hs : Session env.enc h V S R) (hq : Quiet s) :
    published s.out = S.map (fun x => (x.1, x.2.2)) ∧
    ((∀ u, ClientMsg.didClose u ∉ h) → ∀ S1 u t v S2, S = S1 ++ (u, t, v) :: S2 → (∀ x ∈ S2, x.1 ≠ u) →
      ∃ ds, shown u s.out = some ds ∧ env.lint u t (.ok ds)) := by
  obtain ⟨S1, hp, he⟩ := run_order hn hr _ _ _ hs
  rw [hq.1, hq.2] at he
  simp only [List.append_nil, savesOf] at he
  subst he
  refine ⟨pubMatch_published hp, ?_⟩
  intro hcl T1 u t v T2 e hu
  subst e
  exact shown_last hp (run_no_clear hr hcl) hu

theorem shown_snoc (u : Str) (ds : List LspDiag) (v : Option Int) (out : List ServerMsg) :
    shown u (out ++ [.publish u ds v]) = some ds := by
  induction out with
  | nil => simp [shown]
  | cons m ms ih => cases m <;> simp [shown, ih]

/-- **C46** (closing). Closing an open document clears the diagnostics displayed for it. -/
theorem C46_closing_clears (env : ServerEnv) (n : Nat) (h : List ClientMsg) (s s' : ServerState) (V S R) (u : Str) (p : Str × Int)
    (hr : ServerRun env n h s) (hs : Session env.enc h V S R) (hu : V u = some p)
    (hm : handleMsg env.enc s (.didClose u) = some s') : shown u s'.out = some [] := by
  have hd := (run_inv hr _ _ _ hs).docs u
  rw [hu] at hd
  simp only [handleMsg, hd, Option.map_some, Option.some.injEq] at hm
  subst hm
  exact shown_snoc u [] none s.out

end Jarl

import Verif.Spec.LspNotice
import Verif.Props.LspServer
/-!
# C76: the handshake and the notices of the language server
-/
namespace Jarl
open Spec

/-! ## The handshake -/

theorem encOfName_iff (k : Str) (e : Enc) : encOfName k = some e ↔ k = encName e := by
  unfold encOfName
  constructor
  · intro h
    split at h
    · cases h; assumption
    · split at h
      · cases h; assumption
      · split at h
        · cases h; assumption
        · cases h
  · rintro rfl
    cases e <;> decide

/-- **C76** (encoding). Positions are counted in an encoding that the client understands, in UTF-8 whenever the client offers it. -/
theorem C76_encoding (offered : Option (List Str)) :
    Understands offered (negotiate offered) ∧ (Understands offered .utf8 ↔ negotiate offered = .utf8) := by
  unfold negotiate
  cases offered with
  | none =>
    refine ⟨.inl rfl, ?_⟩
    constructor
    · rintro (h | ⟨l, h, _⟩) <;> cases h
    · nofun
  | some l =>
    have h8 : l.any (fun k => encOfName k = some .utf8) = true ↔ cs! "utf-8" ∈ l := by
      rw [List.any_eq_true]
      constructor
      · rintro ⟨k, hk, h⟩
        have := (encOfName_iff k .utf8).mp (by simpa using h)
        rwa [this] at hk
      · intro h
        exact ⟨_, h, by decide⟩
    by_cases h : cs! "utf-8" ∈ l
    · simp only [h8.mpr h, if_true, iff_true]
      exact ⟨.inr ⟨l, rfl, h⟩, .inr ⟨l, rfl, h⟩⟩
    · have h' : l.any (fun k => encOfName k = some .utf8) = false := by
        cases hx : l.any (fun k => encOfName k = some .utf8) with
        | false => rfl
        | true => exact absurd (h8.mp hx) h
      simp only [h', Bool.false_eq_true, if_false, ite_self]
      refine ⟨.inl rfl, ?_⟩
      constructor
      · rintro (h1 | ⟨l', h1, h2⟩)
        · cases h1
        · cases h1; exact absurd h2 h
      · nofun

example : negotiate (some [cs! "utf-32", cs! "utf-16", cs! "utf-8"]) = .utf8 ∧ negotiate (some [cs! "utf-32"]) = .utf16 := by decide

/-! ## Which configuration file is named -/

/-- **C76** (the configuration named). The file named in the notice is the first configuration file of the opened document that lies in another directory than the working directory;
none is named if there is no such file. -/
theorem C76_config_named (canonical : DPath → Option DPath) (cwd : DPath) (found : List (Option DPath)) (p : DPath) :
    noticedConfig canonical (some cwd) (some found) = some p ↔
      ∃ a b, found = a ++ some p :: b ∧ Elsewhere canonical cwd p ∧ ∀ q, some q ∈ a → ¬ Elsewhere canonical cwd q := by
  unfold noticedConfig
  have key : ∀ (c : Option DPath) (p : DPath), configElsewhere canonical cwd c = some p ↔ c = some p ∧ Elsewhere canonical cwd p := by
    unfold configElsewhere
    intro c p
    cases c with
    | none => simp
    | some q =>
      simp only [Option.some.injEq]
      unfold Elsewhere
      by_cases hq : q = []
      · subst hq
        simp only [if_true]
        constructor
        · nofun
        · rintro ⟨rfl, h, _⟩; exact absurd rfl h
      · rw [if_neg hq]
        cases hc : canonical q.dropLast with
        | none =>
          constructor
          · nofun
          · rintro ⟨rfl, _, d, h, _⟩; rw [hc] at h; cases h
        | some d =>
          simp only
          by_cases hd : d ≠ cwd
          · rw [if_pos hd]
            constructor
            · intro h
              cases h
              exact ⟨rfl, hq, d, hc, hd⟩
            · rintro ⟨rfl, _⟩; rfl
          · rw [if_neg hd]
            constructor
            · nofun
            · rintro ⟨rfl, _, d', h, h'⟩
              rw [hc] at h
              cases h
              exact absurd h' hd
  simp only
  rw [List.findSome?_eq_some_iff]
  constructor
  · rintro ⟨a, x, b, rfl, h1, h2⟩
    obtain ⟨rfl, h3⟩ := (key x p).mp h1
    refine ⟨a, b, rfl, h3, ?_⟩
    intro q hq he
    have := h2 (some q) hq
    rw [(key (some q) q).mpr ⟨rfl, he⟩] at this
    cases this
  · rintro ⟨a, b, rfl, h1, h2⟩
    refine ⟨a, some p, b, rfl, (key _ p).mpr ⟨rfl, h1⟩, ?_⟩
    intro c hc
    cases hx : configElsewhere canonical cwd c with
    | none => rfl
    | some q =>
      obtain ⟨rfl, he⟩ := (key c q).mp hx
      exact absurd he (h2 q hc)

/-- **C76** (the number). If the number is 0, all reports are shown. Otherwise it is the number of unused functions of the package, it is above the threshold, no report of
`unused_function` is shown, and all others are. -/
theorem C76_hidden_count (named : Bool) (total threshold : Nat) (ds : List Diagnostic) :
    (hiddenCount named total threshold = 0 → hideUnusedLsp named total threshold ds = ds) ∧
    (0 < hiddenCount named total threshold → hiddenCount named total threshold = total ∧ threshold < total ∧
      ∀ d, d ∈ hideUnusedLsp named total threshold ds ↔ d ∈ ds ∧ d.name ≠ cs! "unused_function") := by
  unfold hiddenCount hideUnusedLsp
  cases named with
  | true => simp
  | false =>
    simp only [Bool.false_eq_true, if_false]
    by_cases h : total > threshold
    · rw [if_pos h, if_pos h]
      refine ⟨fun h0 => absurd h0 (by omega), fun _ => ⟨rfl, h, fun d => ?_⟩⟩
      rw [List.mem_filter, decide_eq_true_eq]
      exact Iff.rfl
    · simp [h]

/-! ## At most one notice -/

theorem hiddenNotices_append (a b : List NoticeMsg) : hiddenNotices (a ++ b) = hiddenNotices a ++ hiddenNotices b := by
  induction a with
  | nil => rfl
  | cons m a ih => cases m <;> simp [hiddenNotices, ih]

theorem configNotices_append (a b : List NoticeMsg) : configNotices (a ++ b) = configNotices a ++ configNotices b := by
  induction a with
  | nil => rfl
  | cons m a ih => cases m <;> simp [configNotices, ih]

theorem hiddenNotices_msgs (l : List ServerMsg) : hiddenNotices (l.map NoticeMsg.msg) = [] := by
  induction l with
  | nil => rfl
  | cons m l ih => simpa [hiddenNotices] using ih

theorem configNotices_msgs (l : List ServerMsg) : configNotices (l.map NoticeMsg.msg) = [] := by
  induction l with
  | nil => rfl
  | cons m l ih => simpa [configNotices] using ih

/-- Is a worker about to show the notice? -/
def notifying : Task × Phase → Bool
  | (_, .toNotify _ _) => true
  | _ => false

/-- Has a worker to ask for the flag? -/
def asking : Task × Phase → Bool
  | (_, .linted _ _) => true
  | _ => false

/-- What a worker holds comes from `lint_document`. -/
def PhaseOk (e : List Linted) : Task × Phase → Prop
  | (.lint sn, .linted ds n) => 0 < n ∧ ⟨sn, ds, n⟩ ∈ e
  | (.lint sn, .toNotify ds n) => 0 < n ∧ ⟨sn, ds, n⟩ ∈ e
  | (.lint sn, .toPublish ds) => ∃ n, ⟨sn, ds, n⟩ ∈ e
  | (_, .start) => True
  | (.action .., _) => False

/-- The invariant. -/
structure NoticeInv (env : NoticeEnv) (h : List ClientMsg) (e : List Linted) (s : NoticeState) : Prop where
  count : (hiddenNotices s.out).length + s.running.countP notifying = if s.notified then 1 else 0
  from_lint : ∀ n ∈ hiddenNotices s.out, 0 < n ∧ ∃ x ∈ e, x.hidden = n
  phases : ∀ t ∈ s.running, PhaseOk e t
  events : ∀ x ∈ e, env.lint x.snap.uri x.snap.content (.ok (x.diags, x.hidden))
  asked : (∃ x ∈ e, 0 < x.hidden) → s.notified = true ∨ 0 < s.running.countP asking
  config : (configNotices s.out).length = if s.configShown then 1 else 0
  config_from : ∀ p ∈ configNotices s.out, ∃ u t v, ClientMsg.didOpen u t v ∈ h ∧ env.config u (some p)
  config_told : (∃ u t v, ClientMsg.didOpen u t v ∈ h ∧ ∀ c, env.config u c → c ≠ none) → s.configShown = true

theorem noticeInv_recv {env : NoticeEnv} {h : List ClientMsg} {e : List Linted} {s s' : NoticeState} {m : ClientMsg} {c : Option DPath}
    (hi : NoticeInv env h e s) (hc : ∀ u t v, m = .didOpen u t v → env.config u c) (hm : handleNotice env.enc s m c = some s') : NoticeInv env (h ++ [m]) e s' := by
  unfold handleNotice at hm
  cases hr : handleMsg env.enc ⟨s.docs, s.queue, [], s.idle, [], s.stopped⟩ m with
  | none => rw [hr] at hm; cases hm
  | some r =>
    rw [hr] at hm
    simp only at hm
    -- the state before the notice
    have base : ∀ h', (∀ x ∈ h, x ∈ h') → (∀ u t v, ClientMsg.didOpen u t v ∈ h' → (∀ c, env.config u c → c ≠ none) → ClientMsg.didOpen u t v ∈ h) → NoticeInv env h' e { s with docs := r.docs, queue := r.queue, out := s.out ++ r.out.map NoticeMsg.msg, stopped := r.stopped } := by
      intro h' hsub hnew
      constructor
      · simp only [hiddenNotices_append, hiddenNotices_msgs, List.append_nil]; exact hi.count
      · simp only [hiddenNotices_append, hiddenNotices_msgs, List.append_nil]; exact hi.from_lint
      · exact hi.phases
      · exact hi.events
      · exact hi.asked
      · simp only [configNotices_append, configNotices_msgs, List.append_nil]; exact hi.config
      · simp only [configNotices_append, configNotices_msgs, List.append_nil]
        intro p hp
        obtain ⟨u, t, v, h1, h2⟩ := hi.config_from p hp
        exact ⟨u, t, v, hsub _ h1, h2⟩
      · rintro ⟨u, t, v, h1, h2⟩
        exact hi.config_told ⟨u, t, v, hnew u t v h1 h2, h2⟩
    by_cases ho : ∃ u t v, m = .didOpen u t v
    · obtain ⟨u, t, v, rfl⟩ := ho
      simp only [Option.some.injEq] at hm
      subst hm
      unfold NoticeState.openNotice
      simp only
      have hcu := hc u t v rfl
      split
      · rename_i hs
        have hb := base h (fun _ h => h) (fun _ _ _ h _ => h)
        exact { hb with
          config_from := fun p hp => by
            obtain ⟨u, t, v, h1, h2⟩ := hb.config_from p hp
            exact ⟨u, t, v, List.mem_append_left _ h1, h2⟩
          config_told := fun _ => hs }
      · rename_i hs
        simp only [Bool.not_eq_true] at hs
        cases c with
        | none =>
          refine base _ (fun x hx => List.mem_append_left _ hx) ?_
          intro u' t' v' h1 h2
          rcases List.mem_append.mp h1 with h1 | h1
          · exact h1
          · rw [List.mem_singleton] at h1
            cases h1
            exact absurd rfl (h2 none hcu)
        | some p =>
          have hb := base h (fun _ h => h) (fun _ _ _ h _ => h)
          have hz : (configNotices (s.out ++ r.out.map NoticeMsg.msg)).length = 0 := by
            have := hb.config
            simp only [hs] at this
            exact this
          constructor
          · have := hb.count
            simp only [hiddenNotices_append _ [NoticeMsg.configNotice p], hiddenNotices, List.append_nil] at this ⊢
            exact this
          · have := hb.from_lint
            simp only [hiddenNotices_append _ [NoticeMsg.configNotice p], hiddenNotices, List.append_nil] at this ⊢
            exact this
          · exact hb.phases
          · exact hb.events
          · exact hb.asked
          · simp only [configNotices_append _ [NoticeMsg.configNotice p], List.length_append, hz, configNotices, if_true]; rfl
          · intro q hq
            simp only [configNotices_append _ [NoticeMsg.configNotice p], List.mem_append] at hq
            rcases hq with hq | hq
            · rw [List.length_eq_zero_iff.mp hz] at hq
              cases hq
            · simp only [configNotices, List.mem_singleton] at hq
              subst hq
              exact ⟨u, t, v, List.mem_append_right _ (by simp), hcu⟩
          · exact fun _ => rfl
    · have e : s' = { s with docs := r.docs, queue := r.queue, out := s.out ++ r.out.map NoticeMsg.msg, stopped := r.stopped } := by
        cases m <;> first | (cases hm; rfl) | exact absurd ⟨_, _, _, rfl⟩ ho
      subst e
      refine base _ (fun x hx => List.mem_append_left _ hx) ?_
      intro u' t' v' h1 _
      rcases List.mem_append.mp h1 with h1 | h1
      · exact h1
      · rw [List.mem_singleton] at h1
        exact absurd ⟨u', t', v', h1.symm⟩ ho

theorem noticeInv_step {env : NoticeEnv} {h : List ClientMsg} {e e' : List Linted} {s s' : NoticeState} (hi : NoticeInv env h e s) (hs : NoticeStep env e s e' s') :
    NoticeInv env h e' s' := by
  have hcount := hi.count
  have hasked := hi.asked
  have hphases := hi.phases
  cases hs with
  | take hq h0 =>
    refine { hi with count := ?_, phases := ?_, asked := ?_ }
    · simpa [List.countP_append, notifying] using hcount
    · intro t ht
      rcases List.mem_append.mp ht with ht | ht
      · exact hphases t ht
      · rw [List.mem_singleton] at ht
        subst ht
        rename_i t _
        cases t <;> exact True.intro
    · simpa [List.countP_append, asking] using hasked
  | @lintOk a sn b ds n hr hl =>
    rw [hr] at hcount hasked hphases
    refine { hi with count := ?_, phases := ?_, asked := ?_, events := ?_, from_lint := ?_ }
    · simp only [List.countP_append, List.countP_cons] at hcount ⊢
      split <;> simpa [notifying] using hcount
    · intro n' hn'
      obtain ⟨h1, x, hx, h2⟩ := hi.from_lint n' hn'
      exact ⟨h1, x, List.mem_append_left _ hx, h2⟩
    · have old : ∀ t ∈ a ++ b, PhaseOk (e ++ [⟨sn, ds, n⟩]) t := by
        intro t ht
        have := hphases t (by
          rcases List.mem_append.mp ht with h | h
          · exact List.mem_append_left _ h
          · exact List.mem_append_right _ (List.mem_cons_of_mem _ h))
        obtain ⟨t, p⟩ := t
        cases t <;> cases p <;> simp only [PhaseOk] at this ⊢
        · exact ⟨this.1, List.mem_append_left _ this.2⟩
        · exact ⟨this.1, List.mem_append_left _ this.2⟩
        · obtain ⟨k, hk⟩ := this
          exact ⟨k, List.mem_append_left _ hk⟩
      intro t ht
      rcases List.mem_append.mp ht with h | h
      · exact old t (List.mem_append_left _ h)
      · rcases List.mem_cons.mp h with rfl | h
        · split
          · exact ⟨by assumption, by simp⟩
          · exact ⟨n, by simp⟩
        · exact old t (List.mem_append_right _ h)
    · intro x hx
      rcases List.mem_append.mp hx with h | h
      · exact hi.events x h
      · rw [List.mem_singleton] at h
        subst h
        exact hl
    · rintro ⟨x, hx, h0⟩
      simp only [List.countP_append, List.countP_cons]
      rcases List.mem_append.mp hx with h | h
      · rcases hasked ⟨x, h, h0⟩ with h | h
        · exact .inl h
        · right
          simp only [List.countP_append, List.countP_cons, asking, Bool.false_eq_true, if_false, Nat.add_zero] at h
          omega
      · rw [List.mem_singleton] at h
        subst h
        right
        simp only at h0
        rw [if_pos h0]
        simp only [asking, if_true]
        omega
  | @swap a sn b ds n hr =>
    rw [hr] at hcount hasked hphases
    refine { hi with count := ?_, phases := ?_, asked := fun _ => .inl rfl }
    · simp only [List.countP_append, List.countP_cons] at hcount ⊢
      cases hn : s.notified with
      | true => simpa [hn, notifying] using hcount
      | false =>
        simp only [hn, notifying, Bool.false_eq_true, if_false, if_true] at hcount ⊢
        omega
    · intro t ht
      rcases List.mem_append.mp ht with h | h
      · exact hphases t (List.mem_append_left _ h)
      · rcases List.mem_cons.mp h with rfl | h
        · have := hphases (Task.lint sn, Phase.linted ds n) (by simp)
          simp only [PhaseOk] at this
          cases s.notified with
          | true => exact ⟨n, this.2⟩
          | false => exact this
        · exact hphases t (List.mem_append_right _ (List.mem_cons_of_mem _ h))
  | @notify a sn b ds n hr =>
    rw [hr] at hcount hasked hphases
    have hthis := hphases (Task.lint sn, Phase.toNotify ds n) (by simp)
    simp only [PhaseOk] at hthis
    refine { hi with count := ?_, phases := ?_, asked := ?_, from_lint := ?_, config := ?_, config_from := ?_ }
    · simp only [List.countP_append, List.countP_cons, hiddenNotices_append, List.length_append, hiddenNotices, List.length_singleton, notifying, Bool.false_eq_true, if_false, if_true] at hcount ⊢
      omega
    · intro n' hn'
      rw [hiddenNotices_append] at hn'
      rcases List.mem_append.mp hn' with h | h
      · exact hi.from_lint n' h
      · simp only [hiddenNotices, List.mem_singleton] at h
        subst h
        exact ⟨hthis.1, _, hthis.2, rfl⟩
    · intro t ht
      rcases List.mem_append.mp ht with h | h
      · exact hphases t (List.mem_append_left _ h)
      · rcases List.mem_cons.mp h with rfl | h
        · exact ⟨n, hthis.2⟩
        · exact hphases t (List.mem_append_right _ (List.mem_cons_of_mem _ h))
    · simpa [List.countP_append, List.countP_cons, asking] using hasked
    · simpa [configNotices_append, configNotices] using hi.config
    · simpa [configNotices_append, configNotices] using hi.config_from
  | @publish a sn b ds hr =>
    rw [hr] at hcount hasked hphases
    refine { hi with count := ?_, phases := ?_, asked := ?_, from_lint := ?_, config := ?_, config_from := ?_ }
    · simpa [List.countP_append, List.countP_cons, hiddenNotices_append, hiddenNotices, notifying] using hcount
    · simpa [hiddenNotices_append, hiddenNotices] using hi.from_lint
    · intro t ht
      rcases List.mem_append.mp ht with h | h
      · exact hphases t (List.mem_append_left _ h)
      · exact hphases t (List.mem_append_right _ (List.mem_cons_of_mem _ h))
    · simpa [List.countP_append, List.countP_cons, asking] using hasked
    · simpa [configNotices_append, configNotices] using hi.config
    · simpa [configNotices_append, configNotices] using hi.config_from
  | lintErr hr hl | lintPanic hr hl | actionPanic hr hl =>
    rw [hr] at hcount hasked hphases
    refine { hi with count := ?_, phases := ?_, asked := ?_ }
    · simpa [List.countP_append, List.countP_cons, notifying] using hcount
    · intro t ht
      rcases List.mem_append.mp ht with h | h
      · exact hphases t (List.mem_append_left _ h)
      · exact hphases t (List.mem_append_right _ (List.mem_cons_of_mem _ h))
    · simpa [List.countP_append, List.countP_cons, asking] using hasked
  | actionOk hr hl | actionErr hr hl =>
    rw [hr] at hcount hasked hphases
    refine { hi with count := ?_, phases := ?_, asked := ?_, from_lint := ?_, config := ?_, config_from := ?_ }
    · simpa [List.countP_append, List.countP_cons, hiddenNotices_append, hiddenNotices, notifying] using hcount
    · simpa [hiddenNotices_append, hiddenNotices] using hi.from_lint
    · intro t ht
      rcases List.mem_append.mp ht with h | h
      · exact hphases t (List.mem_append_left _ h)
      · exact hphases t (List.mem_append_right _ (List.mem_cons_of_mem _ h))
    · simpa [List.countP_append, List.countP_cons, asking] using hasked
    · simpa [configNotices_append, configNotices] using hi.config
    · simpa [configNotices_append, configNotices] using hi.config_from

theorem noticeRun_inv {env : NoticeEnv} {n : Nat} {h : List ClientMsg} {e : List Linted} {s : NoticeState} (hr : NoticeRun env n h e s) : NoticeInv env h e s := by
  induction hr with
  | init =>
    constructor
    · rfl
    · intro n h; cases h
    · intro t h; cases h
    · intro x h; cases h
    · rintro ⟨x, h, _⟩; cases h
    · rfl
    · intro p h; cases h
    · rintro ⟨u, t, v, h, _⟩; cases h
  | recv _ _ hc hm _ ih => exact noticeInv_recv ih hc hm
  | work _ hs ih => exact noticeInv_step ih hs

/-- **C76** (hidden reports). However the workers interleave, the notice that reports are hidden is shown at most once in a session, and its number is that of a document that was
linted. Once no worker is busy, it has been shown if in any linted document reports were hidden. -/
theorem C76_hidden_once {env : NoticeEnv} {n : Nat} {h : List ClientMsg} {e : List Linted} {s : NoticeState} (hr : NoticeRun env n h e s) :
    (hiddenNotices s.out).length ≤ 1 ∧ (∀ k ∈ hiddenNotices s.out, 0 < k ∧ ∃ x ∈ e, x.hidden = k) ∧
    (s.running = [] → ∀ x ∈ e, 0 < x.hidden → (hiddenNotices s.out).length = 1) := by
  have hi := noticeRun_inv hr
  refine ⟨?_, hi.from_lint, ?_⟩
  · have := hi.count
    split at this <;> omega
  · intro hrun x hx h0
    have h1 := hi.count
    rcases hi.asked ⟨x, hx, h0⟩ with h2 | h2
    · rw [h2, hrun] at h1
      simpa using h1
    · rw [hrun] at h2
      simp at h2

/-- **C76** (configuration). The notice which configuration file is used is shown at most once, names the file found for a document that was opened, and is shown as soon as
a document has been opened for which such a file was found. -/
theorem C76_config_once {env : NoticeEnv} {n : Nat} {h : List ClientMsg} {e : List Linted} {s : NoticeState} (hr : NoticeRun env n h e s) :
    (configNotices s.out).length ≤ 1 ∧ (∀ p ∈ configNotices s.out, ∃ u t v, ClientMsg.didOpen u t v ∈ h ∧ env.config u (some p)) ∧
    ((∃ u t v, ClientMsg.didOpen u t v ∈ h ∧ ∀ c, env.config u c → c ≠ none) → (configNotices s.out).length = 1) := by
  have hi := noticeRun_inv hr
  refine ⟨?_, hi.config_from, ?_⟩
  · have := hi.config
    split at this <;> omega
  · intro hx
    have := hi.config
    rw [hi.config_told hx] at this
    simpa using this

/-! ## The notices do not disturb the rest -/

theorem plainMsgs_append (a b : List NoticeMsg) : plainMsgs (a ++ b) = plainMsgs a ++ plainMsgs b := by
  unfold plainMsgs; rw [List.filterMap_append]

theorem plainMsgs_msgs (l : List ServerMsg) : plainMsgs (l.map NoticeMsg.msg) = l := by
  unfold plainMsgs
  rw [List.filterMap_map]
  induction l with
  | nil => rfl
  | cons m l ih => simpa using ih

/-- The main thread does not look at the workers and the messages sent before. -/
theorem handleMsg_frame (enc : Enc) (s : ServerState) (m : ClientMsg) :
    handleMsg enc s m = (handleMsg enc ⟨s.docs, s.queue, [], s.idle, [], s.stopped⟩ m).map
      (fun r => ⟨r.docs, r.queue, s.running, s.idle, s.out ++ r.out, r.stopped⟩) := by
  cases m <;> simp only [handleMsg, ServerState.snapshot, ServerState.push, ServerState.send, Option.map_some, List.append_nil, List.nil_append]
  · rename_i u cs v
    cases s.docs u with
    | none => simp
    | some d =>
      simp only
      split
      · rfl
      · simp
  · rename_i u
    cases s.docs u with
    | none => simp
    | some d => simp
  · rename_i u
    cases s.docs u with
    | none => simp
    | some d => simp
  · rename_i id u
    cases s.docs u with
    | none => simp
    | some d => simp

theorem handleMsg_idle (enc : Enc) (s r : ServerState) (m : ClientMsg) (h : handleMsg enc s m = some r) : r.running = s.running ∧ r.idle = s.idle := by
  rw [handleMsg_frame] at h
  obtain ⟨x, _, rfl⟩ := Option.map_eq_some_iff.mp h
  exact ⟨rfl, rfl⟩

/-- **C76** (refinement). Apart from the notices, everything the server with notices can do is what the server of C46 can do: its theorems hold for the messages sent. -/
theorem C76_refines {env : NoticeEnv} {n : Nat} {h : List ClientMsg} {e : List Linted} {s : NoticeState} (hr : NoticeRun env n h e s) :
    ServerRun env.plain n h s.plain := by
  induction hr with
  | init => exact .init
  | @recv h e s m c s' hr hst hc hm hq ih =>
    unfold handleNotice at hm
    cases hx : handleMsg env.enc ⟨s.docs, s.queue, [], s.idle, [], s.stopped⟩ m with
    | none => rw [hx] at hm; cases hm
    | some r =>
      rw [hx] at hm
      simp only at hm
      have hp : s'.plain = ⟨r.docs, r.queue, s.running.map Prod.fst, s.idle, plainMsgs s.out ++ r.out, r.stopped⟩ := by
        have key : ∀ s1 : NoticeState, (∃ p, s' = s1.openNotice p) ∨ s' = s1 → s'.plain = s1.plain := by
          rintro s1 (⟨p, rfl⟩ | rfl)
          · unfold NoticeState.openNotice
            split
            · rfl
            · split
              · rfl
              · unfold NoticeState.plain
                simp [plainMsgs_append, plainMsgs]
          · rfl
        rw [key { s with docs := r.docs, queue := r.queue, out := s.out ++ r.out.map NoticeMsg.msg, stopped := r.stopped } (by
          cases m <;> first | (left; cases hm; exact ⟨_, rfl⟩) | (right; cases hm; rfl))]
        unfold NoticeState.plain
        simp only [plainMsgs_append, plainMsgs_msgs]
      refine .recv ih hst (s' := s'.plain) ?_ ?_
      · rw [handleMsg_frame]
        show ((handleMsg env.enc ⟨s.docs, s.queue, [], s.idle, [], s.stopped⟩ m).map _) = _
        rw [hx, hp]
        rfl
      · exact hq
  | @work h e s e' s' hr hs ih =>
    have hi := noticeRun_inv hr
    cases hs with
    | take hq h0 =>
      refine .work ih ?_
      have := WorkStep.take (env := env.plain) (s := s.plain) hq h0
      simpa [NoticeState.plain] using this
    | @lintOk a sn b ds k hrun hl =>
      have : NoticeState.plain { s with running := a ++ (Task.lint sn, if k > 0 then Phase.linted ds k else Phase.toPublish ds) :: b } = s.plain := by
        simp [NoticeState.plain, hrun]
      rw [this]; exact ih
    | @swap a sn b ds k hrun =>
      have : NoticeState.plain { s with running := a ++ (Task.lint sn, if s.notified then Phase.toPublish ds else Phase.toNotify ds k) :: b, notified := true } = s.plain := by
        simp [NoticeState.plain, hrun]
      rw [this]; exact ih
    | @notify a sn b ds k hrun =>
      have : NoticeState.plain { s with running := a ++ (Task.lint sn, Phase.toPublish ds) :: b, out := s.out ++ [.hiddenNotice k] } = s.plain := by
        simp [NoticeState.plain, hrun, plainMsgs_append, plainMsgs]
      rw [this]; exact ih
    | @publish a sn b ds hrun =>
      have hph := hi.phases (Task.lint sn, Phase.toPublish ds) (by rw [hrun]; simp)
      simp only [PhaseOk] at hph
      obtain ⟨k, hk⟩ := hph
      have := WorkStep.lintOk (env := env.plain) (s := s.plain) (a := a.map Prod.fst) (sn := sn) (b := b.map Prod.fst) (ds := ds)
        (by simp [NoticeState.plain, hrun]) ⟨_, hi.events _ hk, rfl⟩
      refine .work ih ?_
      simpa [NoticeState.plain, plainMsgs_append, plainMsgs] using this
    | @lintErr a sn b hrun hl =>
      have := WorkStep.lintErr (env := env.plain) (s := s.plain) (a := a.map Prod.fst) (sn := sn) (b := b.map Prod.fst)
        (by simp [NoticeState.plain, hrun]) ⟨_, hl, rfl⟩
      refine .work ih ?_
      simpa [NoticeState.plain] using this
    | @lintPanic a sn b hrun hl =>
      have := WorkStep.lintPanic (env := env.plain) (s := s.plain) (a := a.map Prod.fst) (sn := sn) (b := b.map Prod.fst)
        (by simp [NoticeState.plain, hrun]) ⟨_, hl, rfl⟩
      refine .work ih ?_
      simpa [NoticeState.plain] using this
    | @actionOk a sn id b as hrun hl =>
      have := WorkStep.actionOk (env := env.plain) (s := s.plain) (a := a.map Prod.fst) (sn := sn) (id := id) (b := b.map Prod.fst)
        (by simp [NoticeState.plain, hrun]) hl
      refine .work ih ?_
      simpa [NoticeState.plain, plainMsgs_append, plainMsgs] using this
    | @actionErr a sn id b hrun hl =>
      have := WorkStep.actionErr (env := env.plain) (s := s.plain) (a := a.map Prod.fst) (sn := sn) (id := id) (b := b.map Prod.fst)
        (by simp [NoticeState.plain, hrun]) hl
      refine .work ih ?_
      simpa [NoticeState.plain, plainMsgs_append, plainMsgs] using this
    | @actionPanic a sn id b hrun hl =>
      have := WorkStep.actionPanic (env := env.plain) (s := s.plain) (a := a.map Prod.fst) (sn := sn) (id := id) (b := b.map Prod.fst)
        (by simp [NoticeState.plain, hrun]) hl
      refine .work ih ?_
      simpa [NoticeState.plain] using this

end Jarl

namespace Jarl
open Spec

/-! ## A concrete session: two workers lint the same document at the same time -/

/-- In every document 60 reports are hidden; the configuration lies in `/p`. -/
def hidingEnv : NoticeEnv where
  enc := .utf8
  lint _ _ r := r = .ok ([], 60)
  actions _ _ _ _ := False
  config _ c := c = some [['p'], cs! "jarl.toml"]

def raceUri : Str := ['u']
def raceHist : List ClientMsg := [.didOpen raceUri ['a'] 1, .didSave raceUri, .didSave raceUri]
def raceSnap : Snap := ⟨raceUri, ['a'], 1⟩

/-- **C76**, a concrete case: both workers find hidden reports before either has set the flag; one notice is shown. -/
theorem C76_race : ∃ e s, NoticeRun hidingEnv 2 raceHist e s ∧ s.running = [] ∧ e.length = 2 ∧ hiddenNotices s.out = [60] ∧
    configNotices s.out = [[['p'], cs! "jarl.toml"]] ∧ (plainMsgs s.out).length = 2 := by
  let d : Str → Option TextDoc := setDoc (fun _ => none) raceUri (some (TextDoc.new ['a'] 1))
  let c : NoticeMsg := .configNotice [['p'], cs! "jarl.toml"]
  have r1 : NoticeRun hidingEnv 2 [.didOpen raceUri ['a'] 1] [] ⟨d, [], [], 2, [c], false, false, true⟩ :=
    .recv (h := []) .init rfl (c := some [['p'], cs! "jarl.toml"]) (fun _ _ _ _ => rfl) rfl (by simp)
  have hd : d raceUri = some (TextDoc.new ['a'] 1) := by simp [d, setDoc]
  have r2 : NoticeRun hidingEnv 2 [.didOpen raceUri ['a'] 1, .didSave raceUri] [] ⟨d, [.lint raceSnap], [], 2, [c], false, false, true⟩ :=
    .recv (h := [.didOpen raceUri ['a'] 1]) r1 rfl (c := none) (fun _ _ _ h => nomatch h)
      (by simp [handleNotice, handleMsg, ServerState.snapshot, ServerState.push, hd, raceSnap, TextDoc.new]) (by simp)
  have r3 : NoticeRun hidingEnv 2 raceHist [] ⟨d, [.lint raceSnap, .lint raceSnap], [], 2, [c], false, false, true⟩ :=
    .recv (h := [.didOpen raceUri ['a'] 1, .didSave raceUri]) r2 rfl (c := none) (fun _ _ _ h => nomatch h)
      (by simp [handleNotice, handleMsg, ServerState.snapshot, ServerState.push, hd, raceSnap, TextDoc.new]) (by simp)
  have r4 := NoticeRun.work r3 (.take rfl (by decide))
  have r5 := NoticeRun.work r4 (.take rfl (by decide))
  have r6 := NoticeRun.work r5 (.lintOk (a := []) (sn := raceSnap) (b := [(.lint raceSnap, .start)]) (ds := []) (n := 60) rfl rfl)
  have r7 := NoticeRun.work r6 (.lintOk (a := [(.lint raceSnap, .linted [] 60)]) (sn := raceSnap) (b := []) (ds := []) (n := 60) rfl rfl)
  have r8 := NoticeRun.work r7 (.swap (a := []) (sn := raceSnap) (b := [(.lint raceSnap, .linted [] 60)]) (ds := []) (n := 60) rfl)
  have r9 := NoticeRun.work r8 (.swap (a := [(.lint raceSnap, .toNotify [] 60)]) (sn := raceSnap) (b := []) (ds := []) (n := 60) rfl)
  have r10 := NoticeRun.work r9 (.publish (a := [(.lint raceSnap, .toNotify [] 60)]) (sn := raceSnap) (b := []) (ds := []) rfl)
  have r11 := NoticeRun.work r10 (.notify (a := []) (sn := raceSnap) (b := []) (ds := []) (n := 60) rfl)
  have r12 := NoticeRun.work r11 (.publish (a := []) (sn := raceSnap) (b := []) (ds := []) rfl)
  exact ⟨_, _, r12, rfl, rfl, rfl, rfl, rfl⟩

end Jarl

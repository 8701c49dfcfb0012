import Verif.Schedule
import Verif.Props.LintFix
/-!
# C32, C33: every schedule of the threads, and every crash point
-/
namespace Jarl
open Spec

variable {L : Lints} {pkg : PackageAnalysis} {cfg : Config}

/-- `k` steps of one thread. -/
def stepsFile (L : Lints) (pkg : PackageAnalysis) (cfg : Config) (path : Str) (io : Io) : Nat → FileSt → FileSt
  | 0, st => st
  | k + 1, st => stepsFile L pkg cfg path io k (stepFile L pkg cfg path io st)

theorem runSchedule_apply {io : Str → Io} : ∀ (σ : List Str) (w : World) (p : Str),
    runSchedule L pkg cfg io σ w p = stepsFile L pkg cfg p (io p) (σ.count p) (w p)
  | [], w, p => rfl
  | q :: σ, w, p => by
    show runSchedule L pkg cfg io σ (stepWorld L pkg cfg io w q) p = _
    rw [runSchedule_apply σ]
    by_cases h : p = q
    · subst h
      simp [stepWorld, stepsFile]
    · have : (q :: σ).count p = σ.count p := List.count_cons_of_ne (Ne.symm h)
      rw [this]
      simp [stepWorld, h]

theorem stepFile_done {path : Str} {io : Io} {st : FileSt} (h : st.isDone) : stepFile L pkg cfg path io st = st := by
  obtain ⟨res, h⟩ := h
  unfold stepFile
  rw [h]

theorem stepsFile_done {path : Str} {io : Io} : ∀ (k : Nat) {st : FileSt}, st.isDone → stepsFile L pkg cfg path io k st = st
  | 0, _, _ => rfl
  | k + 1, st, h => by
    show stepsFile L pkg cfg path io k (stepFile L pkg cfg path io st) = st
    rw [stepFile_done h, stepsFile_done k h]

theorem stepsFile_add {path : Str} {io : Io} : ∀ (j k : Nat) (st : FileSt),
    stepsFile L pkg cfg path io (j + k) st = stepsFile L pkg cfg path io k (stepsFile L pkg cfg path io j st)
  | 0, k, st => by rw [Nat.zero_add]; rfl
  | j + 1, k, st => by
    rw [Nat.succ_add]
    show stepsFile L pkg cfg path io (j + k) (stepFile L pkg cfg path io st) = _
    rw [stepsFile_add j k]
    rfl

/-- Two runs of a thread that both finish end alike. -/
theorem stepsFile_confluent {path : Str} {io : Io} {st : FileSt} {j k : Nat} (hj : (stepsFile L pkg cfg path io j st).isDone)
    (hk : (stepsFile L pkg cfg path io k st).isDone) : stepsFile L pkg cfg path io j st = stepsFile L pkg cfg path io k st := by
  rcases Nat.le_total j k with h | h
  · obtain ⟨m, rfl⟩ := Nat.exists_eq_add_of_le h
    rw [stepsFile_add, stepsFile_done m hj]
  · obtain ⟨m, rfl⟩ := Nat.exists_eq_add_of_le h
    rw [stepsFile_add, stepsFile_done m hk]

/-- The thread alone computes what `lintFixLoop` does. -/
theorem stepsFile_loop {path : Str} {io : Io} : ∀ {fuel n : Nat} {s : Bool} {d d' : Option Str}
    {res : Except CheckErr (List Diagnostic)}, lintFixLoop L pkg cfg path io fuel n s d = (d', some res) →
    ∃ k, stepsFile L pkg cfg path io k ⟨d, .read n s⟩ = ⟨d', .done res⟩
  | 0, _, _, _, _, _, h => by simp [lintFixLoop] at h
  | fuel + 1, n, s, d, d', res, h => by
    unfold lintFixLoop at h
    cases hr : io.read n d with
    | none =>
      rw [hr] at h
      simp only [Prod.mk.injEq, Option.some.injEq] at h
      obtain ⟨rfl, rfl⟩ := h
      exact ⟨1, by simp [stepsFile, stepFile, hr]⟩
    | some contents =>
      rw [hr] at h
      simp only at h
      cases hg : getChecks L pkg cfg path contents with
      | error e =>
        rw [hg] at h
        simp only [Prod.mk.injEq, Option.some.injEq] at h
        obtain ⟨rfl, rfl⟩ := h
        exact ⟨1, by simp [stepsFile, stepFile, hr, hg]⟩
      | ok checks =>
        rw [hg] at h
        simp only at h
        cases s with
        | false =>
          simp only [Bool.not_false, if_true, Prod.mk.injEq, Option.some.injEq] at h
          obtain ⟨rfl, rfl⟩ := h
          exact ⟨1, by simp [stepsFile, stepFile, hr, hg]⟩
        | true =>
          simp only [Bool.not_true, Bool.false_eq_true, if_false] at h
          cases ha : applyFixes (checks.map (·.fix)) contents with
          | none =>
            rw [ha] at h
            simp only [Prod.mk.injEq, Option.some.injEq] at h
            obtain ⟨rfl, rfl⟩ := h
            exact ⟨1, by simp [stepsFile, stepFile, hr, hg, ha]⟩
          | some r =>
            obtain ⟨s', text⟩ := r
            rw [ha] at h
            simp only at h
            cases hw : io.writeFails n with
            | some left =>
              rw [hw] at h
              simp only [Prod.mk.injEq, Option.some.injEq] at h
              obtain ⟨rfl, rfl⟩ := h
              exact ⟨2, by simp [stepsFile, stepFile, hr, hg, ha, hw]⟩
            | none =>
              rw [hw] at h
              simp only at h
              obtain ⟨k, hk⟩ := stepsFile_loop h
              refine ⟨2 + k, ?_⟩
              rw [stepsFile_add]
              simp [stepsFile, stepFile, hr, hg, ha, hw]
              exact hk

theorem stepsFile_checkPath {path : Str} {io : Io} {fuel : Nat} {d d' : Option Str} {res : Except CheckErr (List Diagnostic)}
    (h : checkPath L pkg cfg path io fuel d = (d', some res)) :
    ∃ k, stepsFile L pkg cfg path io k (startFile cfg path d) = ⟨d', .done res⟩ := by
  have hlint : ∀ {e}, lintOnly L pkg cfg path io d = e →
      stepsFile L pkg cfg path io 1 ⟨d, .read 0 false⟩ = ⟨d, .done e⟩ := by
    intro e he
    unfold lintOnly at he
    cases hr : io.read 0 d with
    | none => rw [hr] at he; simp [stepsFile, stepFile, hr, ← he]
    | some contents =>
      rw [hr] at he
      simp only at he
      cases hg : getChecks L pkg cfg path contents <;> simp [stepsFile, stepFile, hr, hg, ← he]
  unfold checkPath at h
  unfold startFile
  cases hf : (cfg.applyFixes || cfg.applyUnsafeFixes) with
  | false =>
    rw [hf] at h
    simp only [Bool.false_eq_true, if_false, Prod.mk.injEq, Option.some.injEq] at h
    exact ⟨1, by simpa [h.1] using hlint h.2⟩
  | true =>
    rw [hf] at h
    simp only [if_true] at h
    unfold lintFix at h
    cases hx : hasRmdExtension path with
    | true =>
      rw [hx] at h
      simp only [if_true, Prod.mk.injEq, Option.some.injEq] at h
      exact ⟨1, by simpa [h.1] using hlint h.2⟩
    | false =>
      rw [hx] at h
      simp only [Bool.false_eq_true, if_false] at h
      simpa using stepsFile_loop h

/-- **C32 (schedules).** In whatever order the threads' reads and writes interleave, two runs in which a file's thread
finishes leave the same file and give the same result for it. -/
theorem C32_schedule_independent {io : Str → Io} {σ τ : List Str} {d : Disk} {p : Str}
    (hσ : (runSchedule L pkg cfg io σ (startWorld cfg d) p).isDone)
    (hτ : (runSchedule L pkg cfg io τ (startWorld cfg d) p).isDone) :
    runSchedule L pkg cfg io σ (startWorld cfg d) p = runSchedule L pkg cfg io τ (startWorld cfg d) p := by
  rw [runSchedule_apply] at hσ hτ ⊢
  rw [runSchedule_apply]
  exact stepsFile_confluent hσ hτ

/-- **C32 (isolation).** What a finished thread leaves and returns is what checking this file alone gives; other files,
their contents and their faults play no role. -/
theorem C32_isolated {io : Str → Io} {σ : List Str} {d : Disk} {p : Str} {fuel : Nat} {d' : Option Str}
    {res : Except CheckErr (List Diagnostic)}
    (hσ : (runSchedule L pkg cfg io σ (startWorld cfg d) p).isDone)
    (h : checkPath L pkg cfg p (io p) fuel (d p) = (d', some res)) :
    runSchedule L pkg cfg io σ (startWorld cfg d) p = ⟨d', .done res⟩ := by
  obtain ⟨k, hk⟩ := stepsFile_checkPath h
  have hk' : (stepsFile L pkg cfg p (io p) k (startFile cfg p (d p))).isDone := by rw [hk]; exact ⟨_, rfl⟩
  rw [runSchedule_apply] at hσ ⊢
  rw [stepsFile_confluent hσ hk']
  exact hk

/-- **C32 (progress).** When checking each file of a list alone comes to an end, every schedule can be continued so that all
of their threads finish, and a thread that finished is not disturbed. -/
theorem C32_all_finish {io : Str → Io} {d : Disk} {fuel : Nat} : ∀ (ps : List Str) (σ : List Str),
    (∀ p ∈ ps, ∃ d' res, checkPath L pkg cfg p (io p) fuel (d p) = (d', some res)) →
    ∃ τ, ∀ p ∈ ps, (runSchedule L pkg cfg io (σ ++ τ) (startWorld cfg d) p).isDone
  | [], σ, _ => ⟨[], by simp⟩
  | p :: ps, σ, h => by
    obtain ⟨τ, hτ⟩ := C32_all_finish ps σ (fun q hq => h q (List.mem_cons_of_mem _ hq))
    obtain ⟨d', res, hp⟩ := h p List.mem_cons_self
    obtain ⟨k, hk⟩ := stepsFile_checkPath hp
    refine ⟨τ ++ List.replicate k p, fun q hq => ?_⟩
    have hkeep : ∀ (q : Str) (a : List Str), (runSchedule L pkg cfg io (σ ++ τ) (startWorld cfg d) q).isDone →
        (runSchedule L pkg cfg io (σ ++ (τ ++ a)) (startWorld cfg d) q).isDone := by
      intro q a hq
      rw [runSchedule_apply] at hq ⊢
      rw [← List.append_assoc, List.count_append, stepsFile_add, stepsFile_done _ hq]
      exact hq
    rcases List.mem_cons.mp hq with rfl | hq
    · rw [runSchedule_apply, ← List.append_assoc, List.count_append, List.count_replicate_self, Nat.add_comm,
        stepsFile_add]
      have hd : (stepsFile L pkg cfg q (io q) k (startWorld cfg d q)).isDone := by
        show (stepsFile L pkg cfg q (io q) k (startFile cfg q (d q))).isDone
        rw [hk]; exact ⟨_, rfl⟩
      rw [stepsFile_done _ hd]
      exact hd
    · exact hkeep q _ (hτ q hq)

/-! ### C33: interrupted runs -/

/-- What is known about a file at any time: its text is what a whole number of passes made of the original text, unless a
write failed. -/
inductive Sound (L : Lints) (pkg : PackageAnalysis) (cfg : Config) (path a : Str) : FileSt → Prop
  | read {b n s} : Passes L pkg cfg path a s b → Sound L pkg cfg path a ⟨some b, .read n s⟩
  | write {b n s c} : Passes L pkg cfg path a true b → Pass L pkg cfg path b s c → Sound L pkg cfg path a ⟨some b, .write n s c⟩
  | done {b s res} : Passes L pkg cfg path a s b → Sound L pkg cfg path a ⟨some b, .done res⟩
  | failed {d} : Sound L pkg cfg path a ⟨d, .done (.error .write)⟩

theorem stepFile_sound {path a : Str} {io : Io} {st : FileSt} (h : Sound L pkg cfg path a st) :
    Sound L pkg cfg path a (stepFile L pkg cfg path io st) := by
  cases h with
  | @read b n s hp =>
    unfold stepFile
    simp only
    cases hr : io.read n (some b) with
    | none => exact .done hp
    | some contents =>
      have hb : contents = b := by
        unfold Io.read at hr
        split at hr
        · exact (Option.some.inj hr).symm
        · simp at hr
      subst hb
      simp only
      cases hg : getChecks L pkg cfg path contents with
      | error e => exact .done hp
      | ok checks =>
        simp only
        cases s with
        | false => exact .done hp
        | true =>
          simp only [Bool.not_true, Bool.false_eq_true, if_false]
          cases ha : applyFixes (checks.map (·.fix)) contents with
          | none => exact .done hp
          | some r => exact .write hp ⟨checks, hg, ha⟩
  | @write b n s c hp hs =>
    unfold stepFile
    simp only
    cases hw : io.writeFails n with
    | some left => exact .failed
    | none => exact .read (.step hp hs)
  | done hp => exact .done hp
  | failed => exact .failed

theorem stepsFile_sound {path a : Str} {io : Io} : ∀ (k : Nat) {st : FileSt}, Sound L pkg cfg path a st →
    Sound L pkg cfg path a (stepsFile L pkg cfg path io k st)
  | 0, _, h => h
  | k + 1, _, h => stepsFile_sound k (stepFile_sound h)

/-- **C33 (crash points).** Whenever a fixing run is interrupted between system calls, each `.R` file holds the result of a
whole number of fix passes on its original text, or a write of it has failed and been reported. -/
theorem C33_crash_consistent {io : Str → Io} {d : Disk} {p a : Str} (σ : List Str) (ha : d p = some a)
    (hf : cfg.applyFixes = true ∨ cfg.applyUnsafeFixes = true) (hx : hasRmdExtension p = false) :
    (∃ s b, (runSchedule L pkg cfg io σ (startWorld cfg d) p).disk = some b ∧ Passes L pkg cfg p a s b) ∨
    (runSchedule L pkg cfg io σ (startWorld cfg d) p).pc = .done (.error .write) := by
  rw [runSchedule_apply]
  have h0 : Sound L pkg cfg p a (startWorld cfg d p) := by
    unfold startWorld startFile
    rw [ha, hx]
    have : (cfg.applyFixes || cfg.applyUnsafeFixes) = true := by simpa using hf
    rw [this]
    exact .read .start
  have := stepsFile_sound (io := io p) (σ.count p) h0
  generalize stepsFile L pkg cfg p (io p) (σ.count p) (startWorld cfg d p) = st at this
  cases this with
  | read hp => exact .inl ⟨_, _, rfl, hp⟩
  | write hp _ => exact .inl ⟨_, _, rfl, hp⟩
  | done hp => exact .inl ⟨_, _, rfl, hp⟩
  | failed => exact .inr rfl

/-- **C33 (untouched).** At every moment, a file whose thread has not been scheduled, a Rmd/Qmd file, and any file of a run
without fixing flags has its original text. -/
theorem C33_untouched {io : Str → Io} {d : Disk} {p : Str} (σ : List Str)
    (h : p ∉ σ ∨ hasRmdExtension p = true ∨ (cfg.applyFixes = false ∧ cfg.applyUnsafeFixes = false)) :
    (runSchedule L pkg cfg io σ (startWorld cfg d) p).disk = d p := by
  rw [runSchedule_apply]
  rcases h with h | h
  · rw [List.count_eq_zero_of_not_mem h]
    rfl
  · have h0 : startWorld cfg d p = ⟨d p, .read 0 false⟩ := by
      unfold startWorld startFile
      rcases h with h | ⟨h1, h2⟩
      · simp [h]
      · simp [h1, h2]
    rw [h0]
    cases hk : σ.count p with
    | zero => rfl
    | succ k =>
      show (stepsFile L pkg cfg p (io p) k (stepFile L pkg cfg p (io p) ⟨d p, .read 0 false⟩)).disk = d p
      have hd : (stepFile L pkg cfg p (io p) ⟨d p, .read 0 false⟩).isDone ∧
          (stepFile L pkg cfg p (io p) ⟨d p, .read 0 false⟩).disk = d p := by
        unfold stepFile FileSt.isDone
        simp only
        cases hr : (io p).read 0 (d p) with
        | none => simp
        | some c => cases hg : getChecks L pkg cfg p c <;> simp [hg]
      rw [stepsFile_done _ hd.1]
      exact hd.2

/-! ### A concrete run (test): two files, interleaved, then interrupted -/

def exWorldDisk : Disk := fun p => if p = cs! "a.R" then some exText0 else if p = cs! "b.R" then some exText1 else none

def exWorld : World :=
  runSchedule exFixLints exPkg exFixConfig (fun _ => Io.good)
    [cs! "a.R", cs! "b.R", cs! "b.R", cs! "a.R", cs! "a.R", cs! "b.R"] (startWorld exFixConfig exWorldDisk)

example : ((exWorld (cs! "a.R")).disk, (exWorld (cs! "b.R")).disk,
    (match (exWorld (cs! "b.R")).pc with | .done (.ok []) => true | _ => false),
    (match (exWorld (cs! "a.R")).pc with | .write 1 false _ => true | _ => false)) =
    (some exText1, some exText2, true, true) := by decide +kernel

end Jarl

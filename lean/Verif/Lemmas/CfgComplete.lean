import Verif.Lemmas.CfgReach
import Verif.Spec.Dead

/-!
# Completeness of the control-flow graph: visibly dead code is in unreachable blocks
-/

namespace Jarl

open Jarl.Spec

/-! ## Names and conditions -/

theorem afterLastColons_of_none {f : Str} (h : ¬ (cs! "::") <:+: f) : afterLastColons f = none := by
  cases h' : afterLastColons f with
  | none => rfl
  | some n =>
    obtain ⟨p, hp, -⟩ := afterLastColons_some h'
    exact absurd ⟨p, n, hp.symm⟩ h

theorem afterLastColons_of_some {p n : Str} (h : ¬ (cs! "::") <:+: (':' :: n)) : afterLastColons (p ++ cs! "::" ++ n) = some n := by
  induction p with
  | nil =>
    have h1 : afterLastColons (':' :: n) = none := afterLastColons_of_none h
    show afterLastColons (':' :: ':' :: n) = some n
    rw [afterLastColons, h1]
    simp
  | cons c p ih =>
    show afterLastColons (c :: (p ++ cs! "::" ++ n)) = some n
    unfold afterLastColons
    rw [ih]

theorem lastName_eq {f n : Str} (h : LastName f n) : n = funName f := by
  unfold funName
  rcases h with ⟨rfl, h⟩ | ⟨p, rfl, h⟩
  · rw [afterLastColons_of_none h]; rfl
  · rw [afterLastColons_of_some h]; rfl

theorem can_iff (k : Cond) (v : Bool) : Can k v ↔ evalConst k ≠ some (!v) := by
  constructor
  · rintro ⟨σ, I, s, s', h⟩; exact decides_const h
  · intro h; exact ⟨Unit, chaos, (), (), [some v], evalConst_complete k v h, rfl⟩

theorem can_true (k : Cond) : Can k true ↔ evalConst k ≠ some false := can_iff k true
theorem can_false (k : Cond) : Can k false ↔ evalConst k ≠ some true := can_iff k false

/-! ## Dead blocks take everything -/

theorem hasIncoming_addStatement (st : CfgSt) (c r b) : (st.addStatement c r).hasIncoming b = st.hasIncoming b := by
  unfold CfgSt.hasIncoming
  have h1 : ((st.addStatement c r).blk b).preds = (st.blk b).preds := prd_addStatement st c r b
  have h2 : ∀ p, ((st.addStatement c r).blk p).succs = (st.blk p).succs := suc_addStatement st c r
  rw [h1]; simp only [h2]

theorem buildStmts_dead (stop : List Str) : ∀ (ss : List Stmt) (c : Nat) (st : CfgSt), st.hasIncoming c = false → (st.trm c).ends = false →
    buildStmts stop ss c st = ((ss.map Stmt.range).foldl (fun st r => st.addStatement c r) st, c) := by
  intro ss
  induction ss with
  | nil => intros; rfl
  | cons s ss ih =>
    intro c st h1 h2
    simp only [buildStmts, buildStmt_dead stop h1]
    have h3 : ((st.addStatement c s.range).trm c).ends = false := by rw [trm_addStatement]; exact h2
    have h4 : ((st.addStatement c s.range).blk c).term.ends = false := h3
    rw [if_neg (by simp [h4]), ih c _ (by rw [hasIncoming_addStatement]; exact h1) h3]
    rfl

/-- The block where control would continue is not entered. -/
def Closed (p : CfgSt × Nat) : Prop := (p.1.trm p.2).ends = true ∨ p.1.hasIncoming p.2 = false

theorem not_closed {p : CfgSt × Nat} : ¬ Closed p ↔ p.1.hasIncoming p.2 = true ∧ (p.1.trm p.2).ends = false := by
  unfold Closed
  cases (p.1.trm p.2).ends <;> cases p.1.hasIncoming p.2 <;> simp

theorem hasIncoming_false {st : CfgSt} (h : Inv st) {b : Nat} : st.hasIncoming b = false ↔ b ≠ 0 ∧ ∀ i, b ∉ st.suc i := by
  rw [← Bool.not_eq_true, hasIncoming_iff h]
  simp

/-- Later steps do not add edges to `b`. -/
theorem Step.sealed {T J : Nat → Prop} {lo : Nat → Nat} {hi : Nat} {st st' : CfgSt} (h : Step T J lo hi st st') {b : Nat} (hb : ¬ J b)
    (h0 : ∀ i, b ∉ st.suc i) : ∀ i, b ∉ st'.suc i := by
  intro i hi
  rcases h.edges i b hi with h' | h'
  · exact h0 i h'
  · exact hb h'

theorem jmp_new {st p : CfgSt} (hI : Inv st) (hl : p.loops = st.loops) {b : Nat} (h1 : st.len ≤ b) (h2 : b < p.len) : ¬ Jmp p b := by
  rintro (h | ⟨l, h, h'⟩)
  · omega
  · rw [hl] at h
    have := hI.loops l (by
      cases hls : st.loops with
      | nil => simp [hls] at h
      | cons a t => simp [hls] at h; simp [h])
    omega

/-- The flag says whether the builder is in a loop. -/
def Flag (l : Bool) (st : CfgSt) : Prop := l = true ↔ st.loops ≠ []

def ClosedList (stop : List Str) (ss : List Stmt) : Prop :=
  ∀ lo hi c st l, LaidSeq lo hi ss → Inv st → c < st.len → Flag l st → st.hasIncoming c = true → (st.trm c).ends = false →
    (EndsL stop l ss ↔ Closed (buildStmts stop ss c st))

def ClosedStmt (stop : List Str) (x : Stmt) : Prop :=
  ∀ c st l, Laid x → Inv st → c < st.len → Flag l st → st.hasIncoming c = true → (st.trm c).ends = false →
    (Ends stop l x ↔ Closed (buildStmt stop x false c st))

/-- How a list is built after a statement that does, or does not, end its block. -/
theorem tail_closed {stop : List Str} {x : Stmt} {ss : List Stmt} {lo hi c : Nat} {st : CfgSt} (hl : LaidSeq lo hi (x :: ss))
    (hI : Inv st) (hc : c < st.len) (hin : st.hasIncoming c = true) (hcl : Closed (buildStmt stop x false c st)) (hne : ss ≠ []) :
    ∃ b, st.len ≤ b ∧ b < (buildStmts stop (x :: ss) c st).1.len ∧ (∀ i, b ∉ (buildStmts stop (x :: ss) c st).1.suc i) ∧
      ss.map Stmt.range <:+ (buildStmts stop (x :: ss) c st).1.stm b ∧ (buildStmts stop (x :: ss) c st).2 = b := by
  simp only [LaidSeq] at hl
  obtain ⟨hB, hfr⟩ := (good stop).1 x c st hl.2.1 hI hc
  have hq : buildStmts stop (x :: ss) c st = if ((buildStmt stop x false c st).1.blk (buildStmt stop x false c st).2).term.ends = true ∧ ss ≠ []
    then ((buildStmt stop x false c st).1.deadBlock (buildStmt stop x false c st).2 (ss.map Stmt.range), (buildStmt stop x false c st).1.blocks.length)
    else buildStmts stop ss (buildStmt stop x false c st).2 (buildStmt stop x false c st).1 := by
    simp only [buildStmts]
  generalize buildStmts stop (x :: ss) c st = q at *
  generalize buildStmt stop x false c st = p at *
  have hlen := hB.step.fr.len
  have hreg : ∀ r ∈ ss.map Stmt.range, InReg x.range.stop hi r := by
    intro r hr
    obtain ⟨y, hy, rfl⟩ := List.mem_map.1 hr
    exact (laidSeq_mem hl.2.2 hy).1
  by_cases he : (p.1.trm p.2).ends = true
  · rw [if_pos ⟨he, hne⟩] at hq
    subst hq
    obtain ⟨hst, hlen2, hstm, -, -, -⟩ := deadBlock_step (T := fun _ => True) (J := fun _ => False) (lo := fun _ => x.range.stop) (hi := hi)
      hB.step.inv p.2 trivial (rest := ss.map Stmt.range) hreg
    refine ⟨p.1.len, hlen, by simp only; omega, ?_, ?_, rfl⟩
    · apply hst.sealed (fun h => h)
      intro i hi'
      have := (hB.step.inv.edge i _ hi').1
      omega
    · simp only; rw [hstm]; exact List.suffix_refl _
  · have he : (p.1.trm p.2).ends = false := by simpa using he
    have hdead : p.1.hasIncoming p.2 = false := by
      rcases hcl with h | h
      · rw [he] at h; cases h
      · exact h
    rw [if_neg (by rintro ⟨h, -⟩; have he : (p.1.blk p.2).term.ends = false := he; simp [he] at h), buildStmts_dead stop _ _ _ hdead he] at hq
    subst hq
    have hnew : st.len ≤ p.2 := by
      rcases hB.cur' with h | h
      · rw [h, hasIncoming_mono hB.step.fr hin] at hdead; cases hdead
      · exact h
    obtain ⟨hst, hlen2, hstm, -⟩ := deadLoop_step (T := fun _ => True) (J := fun _ => False) (lo := fun _ => x.range.stop) (hi := hi)
      hB.step.inv hB.cur trivial hreg
    refine ⟨p.2, hnew, by simp only; rw [hlen2]; exact hB.cur, ?_, ?_, rfl⟩
    · exact hst.sealed (fun h => h) ((hasIncoming_false hB.step.inv).1 hdead).2
    · simp only; rw [hstm]; exact List.suffix_append _ _

theorem tail_open {stop : List Str} {x : Stmt} {ss : List Stmt} {c : Nat} {st : CfgSt}
    (hcl : ¬ Closed (buildStmt stop x false c st)) :
    buildStmts stop (x :: ss) c st = buildStmts stop ss (buildStmt stop x false c st).2 (buildStmt stop x false c st).1 := by
  simp only [buildStmts]
  rw [not_closed] at hcl
  have he : ((buildStmt stop x false c st).1.blk (buildStmt stop x false c st).2).term.ends = false := hcl.2
  rw [if_neg (by simp [he])]

theorem closed_cons {stop : List Str} {x : Stmt} {ss : List Stmt} (hx : ClosedStmt stop x) (hss : ClosedList stop ss) :
    ClosedList stop (x :: ss) := by
  intro lo hi c st l hl hI hc hf hin hend
  have hll := hl
  simp only [LaidSeq] at hl
  obtain ⟨hB, -⟩ := (good stop).1 x c st hl.2.1 hI hc
  have hX := hx c st l hl.2.1 hI hc hf hin hend
  by_cases hcl : Closed (buildStmt stop x false c st)
  · refine ⟨fun _ => ?_, fun _ => .here (hX.2 hcl)⟩
    by_cases hne : ss = []
    · subst hne
      have : buildStmts stop [x] c st = buildStmt stop x false c st := by simp [buildStmts]
      rw [this]; exact hcl
    · obtain ⟨b, h1, h2, h3, h4, h5⟩ := tail_closed hll hI hc hin hcl hne
      right
      have hinv := ((good stop).2 (x :: ss) lo hi c st hll hI hc).step.inv
      rw [hasIncoming_false hinv, h5]
      have := hI.two
      exact ⟨by omega, h3⟩
  · rw [tail_open hcl]
    have ho := not_closed.1 hcl
    have hS := hss _ _ _ _ l hl.2.2 hB.step.inv hB.cur (by unfold Flag at *; rw [hB.loops]; exact hf) ho.1 ho.2
    rw [← hS]
    constructor
    · intro h
      cases h with
      | here h => exact absurd (hX.1 h) hcl
      | later h => exact h
    · exact .later

/-- Which branches let control go to the block after the `if`. -/
theorem branch_incoming {stop : List Str} {t : Stmt} (hl : Laid t) {s : CfgSt} (hI : Inv s) {b after : Nat} (hb : b < s.len)
    (hJ : ¬ Jmp s after) (dead : Bool) :
    (∃ i, after ∈ (branchSt stop dead t b after s).suc i) ↔
      (∃ i, after ∈ s.suc i) ∨ (dead = false ∧ ¬ Closed (buildStmts stop (bodyList t) b s)) := by
  cases dead with
  | true =>
    simp only [branchSt, if_true, suc_pushStatement]
    simp
  | false =>
    have hB := (good stop).2 (bodyList t) _ _ b s (laid_body hl) hI hb
    simp only [branchSt, Bool.false_eq_true, if_false]
    generalize buildStmts stop (bodyList t) b s = p at *
    have hmid : (∃ i, after ∈ p.1.suc i) ↔ ∃ i, after ∈ s.suc i := by
      constructor
      · rintro ⟨i, hi⟩
        rcases hB.step.edges i _ hi with h | h
        · exact ⟨i, h⟩
        · exact absurd h hJ
      · rintro ⟨i, hi⟩; exact ⟨i, hB.step.fr.suc i hi⟩
    unfold CfgSt.closeBranch
    by_cases hcl : Closed p
    · rw [if_neg]
      · rw [hmid]
        constructor
        · exact Or.inl
        · rintro (h | h)
          · exact h
          · exact absurd hcl h.2
      · rintro ⟨h1, h2⟩
        exact not_closed.2 ⟨h2, h1⟩ hcl
    · have ho := not_closed.1 hcl
      have he : (p.1.blk p.2).term.ends = false := ho.2
      rw [if_pos ⟨he, ho.1⟩]
      refine ⟨fun _ => Or.inr ⟨trivial, hcl⟩, fun _ => ⟨p.2, ?_⟩⟩
      rw [mem_suc_addEdge]
      right
      exact ⟨rfl, rfl, by rw [len_setTerm]; exact hB.cur⟩

theorem flag_of {l : Bool} {st st' : CfgSt} (h : Flag l st) (hl : st'.loops = st.loops) : Flag l st' := by
  unfold Flag at *; rw [hl]; exact h

theorem ifOpen_no_edge {st : CfgSt} (hI : Inv st) (c : Nat) (k : Cond) :
    (∀ i, st.len + 2 ∉ (st.ifOpen c k).suc i) ∧
    (evalConst k = some false → ∀ i, st.len ∉ (st.ifOpen c k).suc i) ∧
    (evalConst k = some true → ∀ i, st.len + 1 ∉ (st.ifOpen c k).suc i) := by
  have base : ∀ j, st.len ≤ j → ∀ i, j ∉ ((st.newBlock.newBlock.newBlock).setTerm c .branch).suc i := by
    intro j hj i h
    rw [suc_setTerm, suc_newBlock, suc_newBlock, suc_newBlock] at h
    have := (hI.edge i j h).1
    omega
  unfold CfgSt.ifOpen
  refine ⟨?_, ?_, ?_⟩
  · intro i h
    split at h
    · rw [suc_addPred, mem_suc_addEdge] at h
      rcases h with h | h
      · exact base _ (by omega) i h
      · have := h.2.1; simp only [CfgSt.len] at *; omega
    · rw [suc_addPred, mem_suc_addEdge] at h
      rcases h with h | h
      · exact base _ (by omega) i h
      · have := h.2.1; simp only [CfgSt.len] at *; omega
    · rw [mem_suc_addEdge, mem_suc_addEdge] at h
      rcases h with (h | h) | h
      · exact base _ (by omega) i h
      · have := h.2.1; simp only [CfgSt.len] at *; omega
      · have := h.2.1; simp only [CfgSt.len] at *; omega
  · intro hk i h
    simp only [hk] at h
    rw [suc_addPred, mem_suc_addEdge] at h
    rcases h with h | h
    · exact base _ (by omega) i h
    · have := h.2.1; simp only [CfgSt.len] at *; omega
  · intro hk i h
    simp only [hk] at h
    rw [suc_addPred, mem_suc_addEdge] at h
    rcases h with h | h
    · exact base _ (by omega) i h
    · have := h.2.1; simp only [CfgSt.len] at *; omega

theorem suc_ifEnd (st : CfgSt) (c a i) : (st.ifEnd c a).suc i = st.suc i := by
  unfold CfgSt.ifEnd; split
  · exact suc_addPred ..
  · rfl

theorem closed_ifElse {stop : List Str} {r : Range} {k : Cond} {t e : Stmt} (ht : ClosedList stop (bodyList t))
    (he : ClosedList stop (bodyList e)) : ClosedStmt stop (.ifElse r k t e) := by
  intro c st l hl hI hc hf hin hend
  rw [buildStmt_ifElse stop hin]
  have hll := hl
  simp only [Laid] at hl
  obtain ⟨a, b, c', d, e', f, hlp, g1, g2, g3⟩ := ifElse_stages ((good stop).2 (bodyList t)) ((good stop).2 (bodyList e)) hll hI hc
  obtain ⟨ed1, ed2⟩ := ifOpen_edges hc k
  obtain ⟨n1, n2, n3⟩ := ifOpen_no_edge hI c k
  have hlp1 : (st.ifOpen c k).loops = st.loops := loops_ifOpen ..
  have hlen1 := b.fr.len
  have two := hI.two
  have b1 := branch_incoming (stop := stop) hl.2.2.2.1 a.inv (b := st.len) (after := st.len + 2) (by omega)
    (jmp_new hI hlp1 (by omega) (by omega)) (evalConst k = some false)
  have b2 := branch_incoming (stop := stop) hl.2.2.2.2 b.inv (b := st.len + 1) (after := st.len + 2) (by omega)
    (jmp_new hI hlp (by omega) (by omega)) (evalConst k = some true)
  have t1 : evalConst k ≠ some false → _ := fun hk => ht _ _ st.len (st.ifOpen c k) l (laid_body hl.2.2.2.1) a.inv (by omega) (flag_of hf hlp1)
    ((hasIncoming_iff a.inv).2 (Or.inr ⟨c, ed1 hk⟩)) (by rw [g1.2]; rfl)
  have t2 : evalConst k ≠ some true → _ := fun hk => he _ _ (st.len + 1) _ l (laid_body hl.2.2.2.2) b.inv (by omega) (flag_of hf hlp)
    (hasIncoming_mono b.fr ((hasIncoming_iff a.inv).2 (Or.inr ⟨c, ed2 hk⟩))) (by rw [g2.2]; rfl)
  have hiff : Closed ((branchSt stop (evalConst k = some true) e (st.len + 1) (st.len + 2)
        (branchSt stop (evalConst k = some false) t st.len (st.len + 2) (st.ifOpen c k))).ifEnd c (st.len + 2), st.len + 2) ↔
      ¬ ((evalConst k ≠ some false ∧ ¬ EndsL stop l (bodyList t)) ∨ (evalConst k ≠ some true ∧ ¬ EndsL stop l (bodyList e))) := by
    have h1 : ∀ {P : Prop}, (P ↔ (evalConst k ≠ some false ∧ ¬ EndsL stop l (bodyList t)) ∨ (evalConst k ≠ some true ∧ ¬ EndsL stop l (bodyList e))) →
      (¬ P ↔ ¬ ((evalConst k ≠ some false ∧ ¬ EndsL stop l (bodyList t)) ∨ (evalConst k ≠ some true ∧ ¬ EndsL stop l (bodyList e)))) := by
      intro P h; rw [h]
    refine Iff.trans ?_ (h1 (P := ∃ i, st.len + 2 ∈ (branchSt stop (evalConst k = some true) e (st.len + 1) (st.len + 2)
        (branchSt stop (evalConst k = some false) t st.len (st.len + 2) (st.ifOpen c k))).suc i) ?_)
    · unfold Closed
      simp only
      rw [g3.2, hasIncoming_false d.inv]
      simp only [suc_ifEnd, Term.ends]
      constructor
      · rintro (h | h)
        · cases h
        · rintro ⟨i, hi⟩; exact h.2 i hi
      · intro h
        right
        exact ⟨by omega, fun i hi => h ⟨i, hi⟩⟩
    · rw [b2, b1]
      constructor
      · rintro ((⟨i, hi⟩ | ⟨h1, h2⟩) | ⟨h1, h2⟩)
        · exact absurd hi (n1 i)
        · have hk : evalConst k ≠ some false := by simpa using h1
          exact Or.inl ⟨hk, fun h => h2 ((t1 hk).1 h)⟩
        · have hk : evalConst k ≠ some true := by simpa using h1
          exact Or.inr ⟨hk, fun h => h2 ((t2 hk).1 h)⟩
      · rintro (⟨hk, h⟩ | ⟨hk, h⟩)
        · exact Or.inl (Or.inr ⟨by simpa using hk, fun h' => h ((t1 hk).2 h')⟩)
        · exact Or.inr ⟨by simpa using hk, fun h' => h ((t2 hk).2 h')⟩
  rw [hiff]
  constructor
  · intro h
    cases h with
    | jump h => cases h
    | ifElse h1 h2 =>
      rw [can_true] at h1
      rw [can_false] at h2
      rintro (⟨h, h'⟩ | ⟨h, h'⟩)
      · exact h' (h1 h)
      · exact h' (h2 h)
  · intro h
    refine .ifElse ?_ ?_
    · rw [can_true]
      intro hk
      apply Classical.byContradiction
      intro h'; exact h (Or.inl ⟨hk, h'⟩)
    · rw [can_false]
      intro hk
      apply Classical.byContradiction
      intro h'; exact h (Or.inr ⟨hk, h'⟩)

theorem closed_ifThen {stop : List Str} {r : Range} {k : Cond} {t : Stmt} : ClosedStmt stop (.ifThen r k t) := by
  intro c st l hl hI hc hf hin hend
  rw [buildStmt_ifThen stop hin]
  obtain ⟨a, b, c', d, e', f, hlp, g1, g2, g3⟩ := ifThen_stages ((good stop).2 (bodyList t)) hl hI hc
  have hlen := b.fr.len
  refine ⟨fun h => (by cases h with | jump h => cases h), ?_⟩
  intro h
  exfalso
  refine not_closed.2 ⟨?_, ?_⟩ h
  · simp only
    rw [hasIncoming_iff d.inv]
    right
    refine ⟨st.len + 1, d.fr.suc _ ?_⟩
    rw [mem_suc_addEdge]; right
    refine ⟨rfl, rfl, ?_⟩
    rw [len_setTerm]; omega
  · simp only; rw [g3.2]; rfl

theorem closed_loop {stop : List Str} {L : Stmt} {r : Range} {b : Stmt} (hL : IsLoop L r b)
    (hlaid : Laid L → r.start < b.range.start ∧ b.range.stop ≤ r.stop ∧ Laid b)
    (hbuild : ∀ c st, st.hasIncoming c = true → buildStmt stop L false c st =
      ((buildStmts stop (bodyList b) (st.len + 1) (st.loopOpen c)).1.loopClose
        (buildStmts stop (bodyList b) (st.len + 1) (st.loopOpen c)).2 st.len, st.len + 2)) : ClosedStmt stop L := by
  intro c st l hl hI hc hf hin hend
  rw [hbuild _ _ hin]
  obtain ⟨l1, l2, l3⟩ := hlaid hl
  obtain ⟨a, b', c', e, f, g1, g2⟩ := loop_stages ((good stop).2 (bodyList b)) l1 l2 l3 hI hc
  refine ⟨fun h => (by cases hL <;> (cases h with | jump h => cases h)), ?_⟩
  intro h
  exfalso
  refine not_closed.2 ⟨?_, ?_⟩ h
  · simp only
    rw [hasIncoming_iff c'.inv]
    exact Or.inr ⟨st.len, (b'.trans c').fr.suc _ (loopOpen_edges hc).2.2⟩
  · simp only; rw [g2.2]; rfl

theorem closed_repeat {stop : List Str} {r : Range} {b : Stmt} : ClosedStmt stop (.repeats r b) := by
  intro c st l hl hI hc hf hin hend
  rw [buildStmt_repeats stop hin]
  simp only [Laid] at hl
  obtain ⟨a, b', c', e, f, g1, g2⟩ := repeat_stages ((good stop).2 (bodyList b)) hl.1 hl.2.1 hl.2.2 hI hc
  refine ⟨fun h => (by cases h with | jump h => cases h), ?_⟩
  intro h
  exfalso
  refine not_closed.2 ⟨?_, ?_⟩ h
  · simp only
    rw [hasIncoming_iff c'.inv]
    exact Or.inr ⟨st.len, (b'.trans c').fr.suc _ (repeatOpen_edges hc).2⟩
  · simp only; rw [g2.2]; rfl

/-- The terminator that a cause leaves on its block. -/
def Spec.Cause.term : Cause → Term
  | .ret => .ret
  | .stop => .stop
  | .brk => .brk
  | .nxt => .nxt

/-- Jumps set the terminator; other leaf statements do not. -/
theorem leaf_term {stop : List Str} {x : Stmt} {c : Nat} {st : CfgSt} {l : Bool} (hc : c < st.len) (hf : Flag l st) (hin : st.hasIncoming c = true)
    (hx : ∀ r t, (∀ k, x ≠ .ifThen r k t) ∧ (∀ k e, x ≠ .ifElse r k t e) ∧ ¬ IsLoop x r t) :
    (∃ cause, Jump stop l x cause ∧ (buildStmt stop x false c st).1.trm c = cause.term) ∨
    ((∀ cause, ¬ Jump stop l x cause) ∧ (buildStmt stop x false c st).1.trm c = st.trm c) := by
  have hbrk : l = true → (st.buildBreak c).trm c = .brk := by
    intro h
    unfold CfgSt.buildBreak
    cases hlp : st.loops with
    | nil => exact absurd hlp (hf.1 h)
    | cons a ls => simp only; rw [trm_addEdge, trm_setTerm hc]
  have hnxt : l = true → (st.buildNext c).trm c = .nxt := by
    intro h
    unfold CfgSt.buildNext
    cases hlp : st.loops with
    | nil => exact absurd hlp (hf.1 h)
    | cons a ls => simp only; rw [trm_addEdge, trm_setTerm hc]
  have hbrk' : l = false → st.buildBreak c = st := by
    intro h
    unfold CfgSt.buildBreak
    cases hlp : st.loops with
    | nil => rfl
    | cons a ls => have := hf.2 (by simp [hlp]); simp [h] at this
  have hnxt' : l = false → st.buildNext c = st := by
    intro h
    unfold CfgSt.buildNext
    cases hlp : st.loops with
    | nil => rfl
    | cons a ls => have := hf.2 (by simp [hlp]); simp [h] at this
  cases x with
  | ifThen r k t => exact absurd rfl ((hx r t).1 k)
  | ifElse r k t e => exact absurd rfl ((hx r t).2.1 k e)
  | fors r b => exact absurd .fors (hx r b).2.2
  | whiles r k b => exact absurd .whiles (hx r b).2.2
  | repeats r b => exact absurd .repeats (hx r b).2.2
  | brk r =>
    simp only [buildStmt, hin, Bool.true_eq_false, if_false]
    cases l with
    | true => exact Or.inl ⟨.brk, .brk, hbrk rfl⟩
    | false => exact Or.inr ⟨fun _ h => (by cases h), by rw [hbrk' rfl]⟩
  | nxt r =>
    simp only [buildStmt, hin, Bool.true_eq_false, if_false]
    cases l with
    | true => exact Or.inl ⟨.nxt, .nxt, hnxt rfl⟩
    | false => exact Or.inr ⟨fun _ h => (by cases h), by rw [hnxt' rfl]⟩
  | ret r =>
    simp only [buildStmt, hin, Bool.true_eq_false, if_false]
    exact Or.inl ⟨.ret, .bare, trm_setTerm hc⟩
  | other r =>
    right
    simp only [buildStmt]
    exact ⟨fun _ h => (by cases h), trm_addStatement ..⟩
  | braced r ss =>
    right
    simp only [buildStmt]
    refine ⟨fun _ h => (by cases h), ?_⟩
    rw [if_neg (by simp)]; exact trm_addStatement ..
  | call r f =>
    simp only [buildStmt, hin, Bool.true_eq_false, if_false, CfgSt.buildCall]
    have hn := funName_lastName f
    have inv : ∀ cause, Jump stop l (.call r f) cause → funName f = cs! "return" ∨ (funName f = cs! "break" ∧ l = true) ∨
        (funName f = cs! "next" ∧ l = true) ∨ (funName f ∈ stop ∧ funName f ≠ cs! "return" ∧ funName f ≠ cs! "break" ∧ funName f ≠ cs! "next") := by
      intro cause h
      cases h with
      | ret h => exact Or.inl (lastName_eq h).symm
      | stop h h1 h2 h3 h4 => rw [lastName_eq h] at h1 h2 h3 h4; exact Or.inr (Or.inr (Or.inr ⟨h1, h2, h3, h4⟩))
      | brkCall h => exact Or.inr (Or.inl ⟨(lastName_eq h).symm, rfl⟩)
      | nxtCall h => exact Or.inr (Or.inr (Or.inl ⟨(lastName_eq h).symm, rfl⟩))
    split
    · rename_i h
      exact Or.inl ⟨.ret, .ret (h ▸ hn), trm_setTerm hc⟩
    · rename_i h1
      split
      · rename_i h
        cases l with
        | true => exact Or.inl ⟨.brk, .brkCall (h ▸ hn), hbrk rfl⟩
        | false =>
          right
          refine ⟨fun cause hj => ?_, by rw [hbrk' rfl]⟩
          rcases inv cause hj with h' | h' | h' | h'
          · exact h1 h'
          · cases h'.2
          · cases h'.2
          · exact h'.2.2.1 h
      · rename_i h2
        split
        · rename_i h
          cases l with
          | true => exact Or.inl ⟨.nxt, .nxtCall (h ▸ hn), hnxt rfl⟩
          | false =>
            right
            refine ⟨fun cause hj => ?_, by rw [hnxt' rfl]⟩
            rcases inv cause hj with h' | h' | h' | h'
            · exact h1 h'
            · cases h'.2
            · cases h'.2
            · exact h'.2.2.2 h
        · rename_i h3
          split
          · rename_i h
            exact Or.inl ⟨.stop, .stop hn h h1 h2 h3, trm_setTerm hc⟩
          · rename_i h
            right
            refine ⟨fun cause hj => ?_, trm_addStatement ..⟩
            rcases inv cause hj with h' | h' | h' | h'
            · exact h1 h'
            · exact h2 h'.1
            · exact h3 h'.1
            · exact h h'.1

theorem ends_leaf {stop : List Str} {x : Stmt} {l : Bool} (hx : ∀ r t, (∀ k, x ≠ .ifThen r k t) ∧ (∀ k e, x ≠ .ifElse r k t e) ∧ ¬ IsLoop x r t) :
    Ends stop l x ↔ ∃ cause, Jump stop l x cause := by
  constructor
  · intro h
    cases h with
    | jump h => exact ⟨_, h⟩
    | ifElse => exact absurd rfl ((hx _ _).2.1 _ _)
  · rintro ⟨c, h⟩; exact .jump h

theorem cause_ends (c : Cause) : c.term.ends = true := by cases c <;> rfl

theorem closed_leaf {stop : List Str} {x : Stmt} (hx : ∀ r t, (∀ k, x ≠ .ifThen r k t) ∧ (∀ k e, x ≠ .ifElse r k t e) ∧ ¬ IsLoop x r t) :
    ClosedStmt stop x := by
  intro c st l hl hI hc hf hin hend
  rw [ends_leaf hx]
  obtain ⟨hlen, hcur⟩ := buildStmt_leaf_len (stop := stop) hI hc hl hx
  obtain ⟨hB, -⟩ := (good stop).1 x c st hl hI hc
  have hin' := hasIncoming_mono hB.step.fr hin
  unfold Closed
  rw [hcur]
  rcases leaf_term (stop := stop) hc hf hin hx with ⟨cause, hj, ht⟩ | ⟨hj, ht⟩
  · refine ⟨fun _ => Or.inl (by rw [ht]; exact cause_ends cause), fun _ => ⟨cause, hj⟩⟩
  · refine ⟨fun ⟨cause, h⟩ => absurd h (hj cause), ?_⟩
    rintro (h | h)
    · rw [ht, hend] at h; cases h
    · rw [hin'] at h; cases h

theorem closed_all (stop : List Str) : (∀ x, ClosedStmt stop x) ∧ (∀ ss, ClosedList stop ss) := by
  apply Stmt.both
  · intro lo hi c st l _ _ _ _ hin hend
    refine ⟨fun h => (by cases h), fun h => ?_⟩
    exact absurd h (not_closed.2 ⟨hin, hend⟩)
  · intro s ss; exact closed_cons
  · intro r; exact closed_leaf (fun _ _ => ⟨by simp, by simp, by intro h; cases h⟩)
  · intro r; exact closed_leaf (fun _ _ => ⟨by simp, by simp, by intro h; cases h⟩)
  · intro r; exact closed_leaf (fun _ _ => ⟨by simp, by simp, by intro h; cases h⟩)
  · intro r f; exact closed_leaf (fun _ _ => ⟨by simp, by simp, by intro h; cases h⟩)
  · intro r; exact closed_leaf (fun _ _ => ⟨by simp, by simp, by intro h; cases h⟩)
  · intro r ss _; exact closed_leaf (fun _ _ => ⟨by simp, by simp, by intro h; cases h⟩)
  · intro r k t _; exact closed_ifThen
  · intro r k t e; exact closed_ifElse
  · intro r b _; exact closed_loop .fors (by simp only [Laid]; exact id) (fun c st => buildStmt_fors stop)
  · intro r k b _; exact closed_loop .whiles (by simp only [Laid]; exact id) (fun c st => buildStmt_whiles stop)
  · intro r b _; exact closed_repeat

end Jarl

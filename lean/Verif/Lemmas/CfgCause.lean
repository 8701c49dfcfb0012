import Verif.Lemmas.CfgSorted

/-!
# Code after a jump is reported with the reason of that jump
-/

namespace Jarl

open Jarl.Spec

/-- The statements `rest` are in a block without incoming edges whose first recorded predecessor ends
with `cause`; neither of the two blocks is the one being extended. -/
def CauseAt (P : Nat → Prop) (n : Nat) (q : CfgSt) (cur : Nat) (rest : List Stmt) (cause : Cause) : Prop :=
  ∃ b p, n ≤ b ∧ b < q.len ∧ (∀ i, b ∉ q.suc i) ∧ rest.map Stmt.range <+: q.stm b ∧ (∃ tl, q.prd b = p :: tl) ∧
    q.trm p = cause.term ∧ p < q.len ∧ P p ∧ p ≠ cur

theorem CauseAt.step {P P' T J : Nat → Prop} {n n' : Nat} {lo : Nat → Nat} {hi : Nat} {st st' : CfgSt} {cur cur' : Nat} {rest : List Stmt} {cause : Cause}
    (h : CauseAt P n st cur rest cause) (hs : Step T J lo hi st st') (hb : ∀ b, n ≤ b → b < st.len → ¬ J b ∧ n' ≤ b)
    (hp : ∀ p, P p → p < st.len → p ≠ cur → ¬ T p ∧ P' p ∧ p ≠ cur') : CauseAt P' n' st' cur' rest cause := by
  obtain ⟨b, p, h1, h2, h3, h4, ⟨tl, h5⟩, h6, h7, h8, h9⟩ := h
  obtain ⟨g1, g2⟩ := hb b h1 h2
  obtain ⟨g3, g4, g5⟩ := hp p h8 h7 h9
  have hlen := hs.fr.len
  refine ⟨b, p, g2, by omega, hs.sealed g1 h3, ?_, ?_, ?_, by omega, g4, g5⟩
  · obtain ⟨e, he, -⟩ := hs.stm b
    rw [he]; exact h4.trans (List.prefix_append _ _)
  · have := hs.fr.prd b
    rw [h5] at this
    obtain ⟨t, ht⟩ := this
    exact ⟨tl ++ t, by rw [← ht]; rfl⟩
  · rw [hs.fr.trm p g3]; exact h6

def CauseList (stop : List Str) (ss : List Stmt) : Prop :=
  ∀ lo hi c st l m x rest cause, LaidSeq lo hi ss → Inv st → c < st.len → Flag l st → st.hasIncoming c = true → (st.trm c).ends = false →
    At stop l ss m (x :: rest) → Jump stop m x cause → rest ≠ [] →
    CauseAt (Own c st.len) st.len (buildStmts stop ss c st).1 (buildStmts stop ss c st).2 rest cause

def CauseStmt (stop : List Str) (y : Stmt) : Prop :=
  ∀ c st l m x rest cause, Laid y → Inv st → c < st.len → Flag l st → st.hasIncoming c = true → (st.trm c).ends = false →
    AtIn stop l y m (x :: rest) → Jump stop m x cause → rest ≠ [] →
    CauseAt (fun p => st.len ≤ p) st.len (buildStmt stop y false c st).1 (buildStmt stop y false c st).2 rest cause

theorem jump_leaf {stop : List Str} {l : Bool} {x : Stmt} {cause : Cause} (h : Jump stop l x cause) :
    ∀ r t, (∀ k, x ≠ .ifThen r k t) ∧ (∀ k e, x ≠ .ifElse r k t e) ∧ ¬ IsLoop x r t := by
  intro r t
  cases h <;> exact ⟨by simp, by simp, fun h => by cases h⟩

theorem jump_unique {stop : List Str} {l : Bool} {x : Stmt} {a b : Cause} (h : Jump stop l x a) (h' : Jump stop l x b) : a = b := by
  have d1 : cs! "return" ≠ cs! "break" := by decide
  have d2 : cs! "return" ≠ cs! "next" := by decide
  have d3 : cs! "break" ≠ cs! "next" := by decide
  have key : ∀ {f n m : Str}, LastName f n → LastName f m → n = m := fun h1 h2 => (lastName_eq h1).trans (lastName_eq h2).symm
  cases h with
  | bare => cases h'; rfl
  | ret h => cases h' with
    | ret => rfl
    | stop h2 _ h3 => exact absurd (key h2 h) h3
    | brkCall h2 => exact absurd (key h h2) d1
    | nxtCall h2 => exact absurd (key h h2) d2
  | stop h g g1 g2 g3 => cases h' with
    | ret h2 => exact absurd (key h h2) g1
    | stop h2 _ h3 => rfl
    | brkCall h2 => exact absurd (key h h2) g2
    | nxtCall h2 => exact absurd (key h h2) g3
  | brk => cases h'; rfl
  | brkCall h => cases h' with
    | ret h2 => exact absurd (key h2 h) d1
    | stop h2 _ _ h3 => exact absurd (key h2 h) h3
    | brkCall h2 => rfl
    | nxtCall h2 => exact absurd (key h h2) d3
  | nxt => cases h'; rfl
  | nxtCall h => cases h' with
    | ret h2 => exact absurd (key h2 h) d2
    | stop h2 _ _ _ h3 => exact absurd (key h2 h) h3
    | brkCall h2 => exact absurd (key h2 h) d3
    | nxtCall h2 => rfl

theorem cause_cons {stop : List Str} {y : Stmt} {ss : List Stmt} (hy : CauseStmt stop y) (hss : CauseList stop ss) : CauseList stop (y :: ss) := by
  intro lo hi c st l m x rest cause hl hI hc hf hin hend h hj hne
  have hll := hl
  simp only [LaidSeq] at hl
  obtain ⟨hB, -⟩ := (good stop).1 y c st hl.2.1 hI hc
  have hlen := hB.step.fr.len
  cases h with
  | here =>
    have hx := jump_leaf hj
    obtain ⟨hlen', hcur⟩ := buildStmt_leaf_len (stop := stop) hI hc hl.2.1 hx
    have htrm : (buildStmt stop y false c st).1.trm c = cause.term := by
      rcases leaf_term (stop := stop) hc hf hin hx with ⟨cause', h1, h2⟩ | ⟨h1, -⟩
      · rw [jump_unique hj h1]; exact h2
      · exact absurd hj (h1 _)
    simp only [buildStmts]
    have hends : ((buildStmt stop y false c st).1.blk (buildStmt stop y false c st).2).term.ends = true := by
      rw [hcur]
      have : ((buildStmt stop y false c st).1.blk c).term = cause.term := htrm
      rw [this]; exact cause_ends _
    rw [if_pos ⟨hends, hne⟩]
    have hreg : ∀ r ∈ ss.map Stmt.range, InReg 0 hi r := by
      intro r hr
      obtain ⟨w, hw, rfl⟩ := List.mem_map.1 hr
      exact (laidSeq_mem hl.2.2 hw).1.mono (Nat.zero_le _) (Nat.le_refl _)
    obtain ⟨d1, d2, d3, d4, d5, d6⟩ := deadBlock_step (T := fun i => i = (buildStmt stop y false c st).1.len) (J := fun _ => False) (lo := fun _ => 0)
      hB.step.inv (buildStmt stop y false c st).2 rfl hreg
    dsimp only
    refine ⟨(buildStmt stop y false c st).1.len, c, by omega, by omega, ?_, by rw [d3]; exact List.prefix_refl _, ⟨[], by rw [d5, hcur]⟩,
      by rw [d6]; exact htrm, by omega, Or.inl rfl, ?_⟩
    · apply d1.sealed (fun h => h)
      intro i hi
      exact absurd (hB.step.inv.edge i _ hi).1 (by omega)
    · show c ≠ (buildStmt stop y false c st).1.len
      omega
  | inside h =>
    obtain ⟨ts, to⟩ := tail_step (stop := stop) hll hI hc
    refine (hy c st l m x rest cause hl.2.1 hI hc hf hin hend h hj hne).step ts ?_ ?_
    · intro b hb hb'; exact ⟨jmp_new hI hB.loops hb hb', hb⟩
    · intro p hp hp' hne'
      refine ⟨?_, Or.inr hp, ?_⟩
      · rintro (h | h)
        · exact hne' h
        · omega
      · intro he
        rcases to with h | h
        · exact hne' (he.trans h)
        · omega
  | later he h =>
    have hcl := (closed_all stop).1 y c st l hl.2.1 hI hc hf hin hend
    have hn : ¬ Closed (buildStmt stop y false c st) := fun h => he (hcl.2 h)
    rw [tail_open hn]
    have ho := not_closed.1 hn
    obtain ⟨b, p, h1, h2, h3, h4, h5, h6, h7, h8, h9⟩ := hss _ _ _ _ l m x rest cause hl.2.2 hB.step.inv hB.cur (flag_of hf hB.loops) ho.1 ho.2 h hj hne
    refine ⟨b, p, Nat.le_trans hlen h1, h2, h3, h4, h5, h6, h7, ?_, h9⟩
    rcases h8 with h | h
    · rw [h]; exact hB.cur'
    · exact Or.inr (Nat.le_trans hlen h)

theorem branch_cause {stop : List Str} {t : Stmt} (ht : CauseList stop (bodyList t)) (hl : Laid t) {s : CfgSt} (hI : Inv s) {b after : Nat} (hb : b < s.len)
    (ha : after < s.len) (ha2 : 2 ≤ after) (hba : b ≠ after) {dead : Bool} (hdead : dead = false) {l m : Bool} (hf : Flag l s) (hin : s.hasIncoming b = true) (hend : (s.trm b).ends = false)
    {x : Stmt} {rest : List Stmt} {cause : Cause} (h : At stop l (bodyList t) m (x :: rest)) (hj : Jump stop m x cause) (hne : rest ≠ []) :
    CauseAt (Own b s.len) s.len (branchSt stop dead t b after s) after rest cause := by
  subst hdead
  have hB := (good stop).2 (bodyList t) _ _ b s (laid_body hl) hI hb
  have hlen := hB.step.fr.len
  have hst : Step (fun i => i = (buildStmts stop (bodyList t) b s).2) (fun j => j = after) (fun _ => 0) 0 (buildStmts stop (bodyList t) b s).1
      (branchSt stop false t b after s) := by
    simp only [branchSt, Bool.false_eq_true, if_false]
    exact .closeBranch hB.step.inv rfl (by omega) ha2 rfl
  refine (ht _ _ b s l m x rest cause (laid_body hl) hI hb hf hin hend h hj hne).step hst ?_ ?_
  · intro b' h1 _; exact ⟨by omega, h1⟩
  · intro p h1 _ h3
    refine ⟨h3, h1, ?_⟩
    rcases h1 with h | h <;> omega

theorem cause_ifThen {stop : List Str} {r : Range} {k : Cond} {t : Stmt} (ht : CauseList stop (bodyList t)) : CauseStmt stop (.ifThen r k t) := by
  intro c st l m x rest cause hl hI hc hf hin hend h hj hne
  rw [buildStmt_ifThen stop hin]
  have hll := hl
  simp only [Laid] at hl
  obtain ⟨a, b, c', d, e', f, hlp, g1, g2, g3⟩ := ifThen_stages ((good stop).2 (bodyList t)) hll hI hc
  obtain ⟨ed1, ed2⟩ := ifOpen_edges hc k
  have hlen := b.fr.len
  have two := hI.two
  obtain ⟨hk, hat⟩ : evalConst k ≠ some false ∧ At stop l (bodyList t) m (x :: rest) := by
    cases h with
    | ifThen hc h => exact ⟨(can_true k).1 hc, h⟩
    | loop hL => cases hL
  have hd : (evalConst k = some false : Bool) = false := by simp [hk]
  have key := branch_cause (after := st.len + 2) ht hl.2.2 a.inv (b := st.len) (by omega) (by omega) (by omega) (by omega) hd
    (flag_of hf (loops_ifOpen ..)) ((hasIncoming_iff a.inv).2 (Or.inr ⟨c, ed1 hk⟩)) (by rw [g1.2]; rfl) hat hj hne
  rw [f] at key
  generalize branchSt stop (evalConst k = some false) t st.len (st.len + 2) (st.ifOpen c k) = st2 at *
  have s1 : Step (fun i => i = st.len + 1) (fun j => j = st.len + 2) (fun _ => 0) 0 st2 (st2.setTerm (st.len + 1) .goto) := .setTerm b.inv _ rfl
  have s2 : Step (fun i => i = st.len + 1) (fun j => j = st.len + 2) (fun _ => 0) 0 (st2.setTerm (st.len + 1) .goto)
    ((st2.setTerm (st.len + 1) .goto).addEdge (st.len + 1) (st.len + 2)) := .addEdge s1.inv (by rw [len_setTerm]; omega) (by omega) rfl
  have s3 := (s1.trans s2).trans (.ifEnd s2.inv c (st.len + 2))
  refine key.step s3 (fun b hb _ => ⟨by omega, by omega⟩) ?_
  intro p hp _ h3
  unfold Own at hp
  omega

theorem cause_ifElse {stop : List Str} {r : Range} {k : Cond} {t e : Stmt} (ht : CauseList stop (bodyList t)) (he : CauseList stop (bodyList e)) :
    CauseStmt stop (.ifElse r k t e) := by
  intro c st l m x rest cause hl hI hc hf hin hend h hj hne
  rw [buildStmt_ifElse stop hin]
  have hll := hl
  simp only [Laid] at hl
  obtain ⟨a, b, c', d, e', f, hlp, g1, g2, g3⟩ := ifElse_stages ((good stop).2 (bodyList t)) ((good stop).2 (bodyList e)) hll hI hc
  obtain ⟨ed1, ed2⟩ := ifOpen_edges hc k
  have hlen := b.fr.len
  have two := hI.two
  have hcases : (evalConst k ≠ some false ∧ At stop l (bodyList t) m (x :: rest)) ∨ (evalConst k ≠ some true ∧ At stop l (bodyList e) m (x :: rest)) := by
    cases h with
    | ifElseT hc h => exact Or.inl ⟨(can_true k).1 hc, h⟩
    | ifElseE hc h => exact Or.inr ⟨(can_false k).1 hc, h⟩
    | loop hL => cases hL
  have b2 := Step.branchSt ((good stop).2 (bodyList e)) hl.2.2.2.2 b.inv (evalConst k = some true) (b := st.len + 1) (after := st.len + 2)
    (lo := e.range.start) (hi := e.range.stop) (by omega) (by omega) (by omega) (Nat.le_refl _) (Nat.le_refl _)
  have last : ∀ s : CfgSt, Inv s → Step (fun _ => False) (fun _ => False) (fun _ => 0) 0 s (s.ifEnd c (st.len + 2)) := fun s h => .ifEnd h c (st.len + 2)
  rcases hcases with ⟨hk, hat⟩ | ⟨hk, hat⟩
  · have hd : (evalConst k = some false : Bool) = false := by simp [hk]
    have key := branch_cause (after := st.len + 2) ht hl.2.2.2.1 a.inv (b := st.len) (by omega) (by omega) (by omega) (by omega) hd
      (flag_of hf (loops_ifOpen ..)) ((hasIncoming_iff a.inv).2 (Or.inr ⟨c, ed1 hk⟩)) (by rw [g1.2]; rfl) hat hj hne
    rw [f] at key
    have key2 : CauseAt (fun p => st.len ≤ p ∧ p ≠ st.len + 2) (st.len + 3) _ (st.len + 2) rest cause := key.step b2.1 (by
      intro j hj hj'
      refine ⟨?_, hj⟩
      rintro (h | h)
      · exact jmp_new hI hlp (by omega) hj' h
      · omega) (by
      intro p hp hp' h3
      unfold Own at *
      omega)
    exact key2.step (last _ b2.1.inv) (fun b hb _ => ⟨fun h => h, by omega⟩) (fun p hp _ h3 => ⟨fun h => h, hp.1, h3⟩)
  · have hd : (evalConst k = some true : Bool) = false := by simp [hk]
    have key := branch_cause (after := st.len + 2) he hl.2.2.2.2 b.inv (b := st.len + 1) (by omega) (by omega) (by omega) (by omega) hd
      (flag_of hf hlp) (hasIncoming_mono b.fr ((hasIncoming_iff a.inv).2 (Or.inr ⟨c, ed2 hk⟩))) (by rw [g2.2]; rfl) hat hj hne
    refine key.step (last _ b2.1.inv) (fun b hb _ => ⟨fun h => h, by omega⟩) ?_
    intro p hp _ h3
    refine ⟨fun h => h, ?_, h3⟩
    unfold Own at hp
    omega

theorem cause_loop {stop : List Str} {L : Stmt} {r : Range} {b : Stmt} (hL : IsLoop L r b) (hb : CauseList stop (bodyList b))
    (hlaid : Laid L → r.start < b.range.start ∧ b.range.stop ≤ r.stop ∧ Laid b)
    (hbuild : ∀ c st, st.hasIncoming c = true → buildStmt stop L false c st =
      ((buildStmts stop (bodyList b) (st.len + 1) (st.loopOpen c)).1.loopClose
        (buildStmts stop (bodyList b) (st.len + 1) (st.loopOpen c)).2 st.len, st.len + 2)) : CauseStmt stop L := by
  intro c st l m x rest cause hl hI hc hf hin hend h hj hne
  rw [hbuild _ _ hin]
  obtain ⟨l1, l2, l3⟩ := hlaid hl
  obtain ⟨a, b', c', e, f, g1, g2⟩ := loop_stages ((good stop).2 (bodyList b)) l1 l2 l3 hI hc
  have hB := (good stop).2 (bodyList b) _ _ (st.len + 1) (st.loopOpen c) (laid_body l3) a.inv (by omega)
  have hlen := hB.step.fr.len
  have hd : At stop true (bodyList b) m (x :: rest) := by
    cases hL <;> cases h with
    | loop hL h => cases hL; exact h
  refine (hb _ _ (st.len + 1) (st.loopOpen c) true m x rest cause (laid_body l3) a.inv (by omega) (flag_loopOpen ..)
    ((hasIncoming_iff a.inv).2 (Or.inr ⟨_, (loopOpen_edges hc).2.1⟩)) (by rw [g1.2]; rfl) hd hj hne).step
    (T := fun i => i = (buildStmts stop (bodyList b) (st.len + 1) (st.loopOpen c)).2) (J := fun j => j = st.len) (lo := fun _ => 0) (hi := 0)
    (.loopClose hB.step.inv rfl (by omega) hI.two rfl) (fun j hj _ => ⟨by omega, by omega⟩) ?_
  intro p hp _ h3
  refine ⟨h3, ?_⟩
  unfold Own at hp
  omega

theorem cause_repeat {stop : List Str} {r : Range} {b : Stmt} (hb : CauseList stop (bodyList b)) : CauseStmt stop (.repeats r b) := by
  intro c st l m x rest cause hl hI hc hf hin hend h hj hne
  rw [buildStmt_repeats stop hin]
  simp only [Laid] at hl
  obtain ⟨l1, l2, l3⟩ := hl
  obtain ⟨a, b', c', e, f, g1, g2⟩ := repeat_stages ((good stop).2 (bodyList b)) l1 l2 l3 hI hc
  have hB := (good stop).2 (bodyList b) _ _ st.len (st.repeatOpen c) (laid_body l3) a.inv (by omega)
  have hlen := hB.step.fr.len
  have hd : At stop true (bodyList b) m (x :: rest) := by
    cases h with
    | loop hL h => cases hL; exact h
  refine (hb _ _ st.len (st.repeatOpen c) true m x rest cause (laid_body l3) a.inv (by omega) (flag_repeatOpen ..)
    ((hasIncoming_iff a.inv).2 (Or.inr ⟨_, (repeatOpen_edges hc).1⟩)) (by rw [g1.2]; rfl) hd hj hne).step
    (T := fun i => i = (buildStmts stop (bodyList b) st.len (st.repeatOpen c)).2) (J := fun j => j = st.len) (lo := fun _ => 0) (hi := 0)
    (.loopClose hB.step.inv rfl (by omega) hI.two rfl) (fun j hj _ => ⟨by omega, by omega⟩) ?_
  intro p hp _ h3
  refine ⟨h3, ?_⟩
  unfold Own at hp
  omega

theorem cause_all (stop : List Str) : (∀ x, CauseStmt stop x) ∧ (∀ ss, CauseList stop ss) := by
  have leaf : ∀ y : Stmt, (∀ l m z, ¬ AtIn stop l y m z) → CauseStmt stop y := by
    intro y h c st l m x rest cause _ _ _ _ _ _ h'
    exact absurd h' (h _ _ _)
  apply Stmt.both
  · intro lo hi c st l m x rest cause _ _ _ _ _ _ h; cases h
  · intro s ss; exact cause_cons
  · intro r; exact leaf _ (fun _ _ _ h => by cases h with | loop hL => cases hL)
  · intro r; exact leaf _ (fun _ _ _ h => by cases h with | loop hL => cases hL)
  · intro r; exact leaf _ (fun _ _ _ h => by cases h with | loop hL => cases hL)
  · intro r f; exact leaf _ (fun _ _ _ h => by cases h with | loop hL => cases hL)
  · intro r; exact leaf _ (fun _ _ _ h => by cases h with | loop hL => cases hL)
  · intro r ss _; exact leaf _ (fun _ _ _ h => by cases h with | loop hL => cases hL)
  · intro r k t; exact cause_ifThen
  · intro r k t e; exact cause_ifElse
  · intro r b h; exact cause_loop .fors h (by simp only [Laid]; exact id) (fun c st => buildStmt_fors stop)
  · intro r k b h; exact cause_loop .whiles h (by simp only [Laid]; exact id) (fun c st => buildStmt_whiles stop)
  · intro r b h; exact cause_repeat h

/-- The reason matching a jump. -/
def Spec.Cause.reason : Cause → Reason
  | .ret => .afterReturn
  | .stop => .afterStop
  | .brk => .afterBreak
  | .nxt => .afterNext

theorem cause_message (c : Cause) : c.reason.message = c.message := by cases c <;> rfl

theorem reasonOf_cause {F : CfgSt} {b p : Nat} {tl : List Nat} {cause : Cause} (h1 : F.prd b = p :: tl) (h2 : F.trm p = cause.term) :
    reasonOf F.blocks b = cause.reason := by
  have h1' : (blockAt F.blocks b).preds = p :: tl := h1
  have h2' : (blockAt F.blocks p).term = cause.term := h2
  unfold reasonOf
  simp only [h1', predReason, h2']
  cases cause <;> rfl

theorem reported_cause (stop : List Str) (ss : List Stmt) {lo hi : Nat} (hl : LaidSeq lo hi ss) {m : Bool} {x : Stmt} {rest : List Stmt} {cause : Cause}
    (h : At stop false ss m (x :: rest)) (hj : Jump stop m x cause) (hne : rest ≠ []) :
    ∃ z ∈ findUnreachable (buildStmts stop ss 0 .init).1.blocks, z.2 = cause.reason ∧ ∀ y ∈ rest, Covers z.1 y.range := by
  obtain ⟨b, p, h1, h2, h3, h4, ⟨tl, h5⟩, h6, h7, h8, h9⟩ := (cause_all stop).2 ss lo hi 0 .init false m x rest cause hl inv_init (by decide)
    (by simp [Flag, CfgSt.init]) (by decide) (by decide) h hj hne
  obtain ⟨y, t, rfl⟩ : ∃ y t, rest = y :: t := by cases rest with | nil => exact absurd rfl hne | cons y t => exact ⟨y, t, rfl⟩
  obtain ⟨z, hz, hr, hc⟩ := reported_of_dead stop ss hl (b := b) (r := y.range) h1 h2 h3 (h4.subset (by simp))
  refine ⟨z, hz, by rw [hr]; exact reasonOf_cause h5 h6, ?_⟩
  intro w hw
  exact hc _ (h4.subset (List.mem_map.2 ⟨w, hw, rfl⟩))

theorem reported_dead (stop : List Str) (ss : List Stmt) {lo hi : Nat} (hl : LaidSeq lo hi ss) {x : Stmt} (h : Dead stop false ss x) :
    ∃ z ∈ findUnreachable (buildStmts stop ss 0 .init).1.blocks, Covers z.1 x.range := by
  obtain ⟨b, h1, h2, h3, r, hr, hc⟩ := (dead_all stop).2 ss lo hi 0 .init false hl inv_init (by decide)
    (by simp [Flag, CfgSt.init]) (by decide) (by decide) x h
  obtain ⟨z, hz, -, hall⟩ := reported_of_dead stop ss hl (b := b) (r := r) h1 h2 h3 hr
  have := hall r hr
  exact ⟨z, hz, Nat.le_trans this.1 hc.1, Nat.le_trans hc.2 this.2⟩

end Jarl

import Verif.Lemmas.CfgComplete

/-!
# Visibly dead code is reported
-/

namespace Jarl

open Jarl.Spec

/-- `x` is inside of `r`. -/
def Covers (r x : Range) : Prop := r.start ≤ x.start ∧ x.stop ≤ r.stop

/-- The text `x` is in a block without incoming edges, among those of `P`. -/
def DeadAt (P : Nat → Prop) (st : CfgSt) (x : Range) : Prop :=
  ∃ b, P b ∧ b < st.len ∧ (∀ i, b ∉ st.suc i) ∧ ∃ r ∈ st.stm b, Covers r x

theorem DeadAt.step {P P' T J : Nat → Prop} {lo : Nat → Nat} {hi : Nat} {st st' : CfgSt} {x : Range} (h : DeadAt P st x)
    (hs : Step T J lo hi st st') (hP : ∀ b, P b → b < st.len → ¬ J b ∧ P' b) : DeadAt P' st' x := by
  obtain ⟨b, h1, h2, h3, r, hr, hc⟩ := h
  obtain ⟨hj, hp⟩ := hP b h1 h2
  have hlen := hs.fr.len
  refine ⟨b, hp, by omega, hs.sealed hj h3, r, ?_, hc⟩
  obtain ⟨e, he, -⟩ := hs.stm b
  rw [he]; exact List.mem_append_left _ hr

/-- Dead statements are inside of the statements that contain them. -/
theorem dead_inside (stop : List Str) :
    (∀ y, ∀ l x, Laid y → DeadIn stop l y x → Covers y.range x.range) ∧
    (∀ ss, ∀ l x lo hi, LaidSeq lo hi ss → Dead stop l ss x → ∃ z ∈ ss, Covers z.range x.range) := by
  have body : ∀ (t : Stmt), (∀ l x lo hi, LaidSeq lo hi (bodyList t) → Dead stop l (bodyList t) x → ∃ z ∈ bodyList t, Covers z.range x.range) →
      Laid t → ∀ l x, Dead stop l (bodyList t) x → Covers t.range x.range := by
    intro t ih hl l x h
    obtain ⟨z, hz, hc⟩ := ih l x _ _ (laid_body hl) h
    have := (laidSeq_mem (laid_body hl) hz).1
    unfold Covers InReg at *
    omega
  have loop : ∀ L r b, IsLoop L r b → L.range = r → (Laid L → r.start < b.range.start ∧ b.range.stop ≤ r.stop ∧ Laid b) →
      (∀ l x lo hi, LaidSeq lo hi (bodyList b) → Dead stop l (bodyList b) x → ∃ z ∈ bodyList b, Covers z.range x.range) →
      ∀ l x, Laid L → DeadIn stop l L x → Covers L.range x.range := by
    intro L r b hL hr hlaid ih l x hl h
    obtain ⟨h1, h2, h3⟩ := hlaid hl
    rw [hr]
    have key : Dead stop true (bodyList b) x := by
      cases hL <;> cases h with
      | loop hL h => cases hL; exact h
    have := body b ih h3 true x key
    unfold Covers at *
    omega
  apply Stmt.both
  · intro l x lo hi _ h; cases h
  · intro s ss hs hss l x lo hi hl h
    simp only [LaidSeq] at hl
    cases h with
    | after _ h => exact ⟨x, List.mem_cons_of_mem _ h, Nat.le_refl _, Nat.le_refl _⟩
    | inside h => exact ⟨s, List.mem_cons_self .., hs l x hl.2.1 h⟩
    | later h =>
      obtain ⟨z, hz, hc⟩ := hss l x _ _ hl.2.2 h
      exact ⟨z, List.mem_cons_of_mem _ hz, hc⟩
  · intro r l x _ h; cases h with | loop hL => cases hL
  · intro r l x _ h; cases h with | loop hL => cases hL
  · intro r l x _ h; cases h with | loop hL => cases hL
  · intro r f l x _ h; cases h with | loop hL => cases hL
  · intro r l x _ h; cases h with | loop hL => cases hL
  · intro r ss _ l x _ h; cases h with | loop hL => cases hL
  · intro r k t ih l x hl h
    simp only [Laid] at hl
    show Covers r x.range
    have : Covers t.range x.range := by
      cases h with
      | ifThen h => exact body t ih hl.2.2 l x h
      | never h => exact ⟨Nat.le_refl _, Nat.le_refl _⟩
      | loop hL => cases hL
    unfold Covers at *; omega
  · intro r k t e iht ihe l x hl h
    simp only [Laid] at hl
    show Covers r x.range
    have ht := laid_pos t hl.2.2.2.1
    have he := laid_pos e hl.2.2.2.2
    have : Covers t.range x.range ∨ Covers e.range x.range := by
      cases h with
      | ifElseT h => exact Or.inl (body t iht hl.2.2.2.1 l x h)
      | ifElseE h => exact Or.inr (body e ihe hl.2.2.2.2 l x h)
      | neverT h => exact Or.inl ⟨Nat.le_refl _, Nat.le_refl _⟩
      | neverE h => exact Or.inr ⟨Nat.le_refl _, Nat.le_refl _⟩
      | loop hL => cases hL
    unfold Covers at *; omega
  · intro r b ih; exact loop _ r b .fors rfl (by simp only [Laid]; exact id) ih
  · intro r k b ih; exact loop _ r b .whiles rfl (by simp only [Laid]; exact id) ih
  · intro r b ih; exact loop _ r b .repeats rfl (by simp only [Laid]; exact id) ih

theorem dead_body {stop : List Str} {t : Stmt} (hl : Laid t) {l x} (h : Dead stop l (bodyList t) x) : Covers t.range x.range := by
  obtain ⟨z, hz, hc⟩ := (dead_inside stop).2 _ l x _ _ (laid_body hl) h
  have := (laidSeq_mem (laid_body hl) hz).1
  unfold Covers InReg at *
  omega

def DeadList (stop : List Str) (ss : List Stmt) : Prop :=
  ∀ lo hi c st l, LaidSeq lo hi ss → Inv st → c < st.len → Flag l st → st.hasIncoming c = true → (st.trm c).ends = false →
    ∀ x, Dead stop l ss x → DeadAt (fun b => st.len ≤ b) (buildStmts stop ss c st).1 x.range

def DeadStmt (stop : List Str) (y : Stmt) : Prop :=
  ∀ c st l, Laid y → Inv st → c < st.len → Flag l st → st.hasIncoming c = true → (st.trm c).ends = false →
    ∀ x, DeadIn stop l y x → DeadAt (fun b => st.len ≤ b) (buildStmt stop y false c st).1 x.range

/-- Adding the rest of a list keeps what is dead in its first statement. -/
theorem tail_step {stop : List Str} {x : Stmt} {ss : List Stmt} {lo hi c : Nat} {st : CfgSt} (hl : LaidSeq lo hi (x :: ss))
    (hI : Inv st) (hc : c < st.len) :
    Step (Own (buildStmt stop x false c st).2 (buildStmt stop x false c st).1.len) (Jmp (buildStmt stop x false c st).1) (fun _ => lo) hi
      (buildStmt stop x false c st).1 (buildStmts stop (x :: ss) c st).1 ∧
    Own (buildStmt stop x false c st).2 (buildStmt stop x false c st).1.len (buildStmts stop (x :: ss) c st).2 := by
  have hll := hl
  simp only [LaidSeq] at hl
  obtain ⟨hB, -⟩ := (good stop).1 x c st hl.2.1 hI hc
  have hp := laid_pos x hl.2.1
  simp only [buildStmts]
  generalize buildStmt stop x false c st = p at *
  split
  · refine ⟨(deadBlock_step hB.step.inv p.2 (Or.inr (Nat.le_refl _)) ?_).1, Or.inr (Nat.le_refl _)⟩
    intro r hr
    obtain ⟨y, hy, rfl⟩ := List.mem_map.1 hr
    exact (laidSeq_mem hl.2.2 hy).1.mono (by omega) (Nat.le_refl _)
  · have hB2 := (good stop).2 ss _ hi p.2 p.1 hl.2.2 hB.step.inv hB.cur
    exact ⟨hB2.step.mono (fun _ h => h) (fun _ h => h) (by intro i _; simp only [ite_self]; omega) (Nat.le_refl _), hB2.cur'⟩

theorem dead_cons {stop : List Str} {y : Stmt} {ss : List Stmt} (hy : DeadStmt stop y) (hss : DeadList stop ss) :
    DeadList stop (y :: ss) := by
  intro lo hi c st l hl hI hc hf hin hend x h
  have hll := hl
  simp only [LaidSeq] at hl
  obtain ⟨hB, -⟩ := (good stop).1 y c st hl.2.1 hI hc
  have hcl := (closed_all stop).1 y c st l hl.2.1 hI hc hf hin hend
  -- everything after a statement that ends the block
  have after : Ends stop l y → ∀ x : Range, (∃ z ∈ ss, Covers z.range x) → DeadAt (fun b => st.len ≤ b) (buildStmts stop (y :: ss) c st).1 x := by
    intro he x ⟨z, hz, hcov⟩
    obtain ⟨b, h1, h2, h3, h4, -⟩ := tail_closed hll hI hc hin (hcl.1 he) (by intro h; subst h; cases hz)
    exact ⟨b, h1, h2, h3, z.range, h4.subset (List.mem_map.2 ⟨z, hz, rfl⟩), hcov⟩
  cases h with
  | after he hx => exact after he _ ⟨x, hx, Nat.le_refl _, Nat.le_refl _⟩
  | inside h =>
    refine (hy c st l hl.2.1 hI hc hf hin hend x h).step (tail_step hll hI hc).1 ?_
    intro b hb hb'
    exact ⟨jmp_new hI hB.loops hb hb', hb⟩
  | later h =>
    by_cases he : Ends stop l y
    · exact after he _ ((dead_inside stop).2 ss l x _ _ hl.2.2 h)
    · have hn : ¬ Closed (buildStmt stop y false c st) := fun h => he (hcl.2 h)
      rw [tail_open hn]
      have ho := not_closed.1 hn
      obtain ⟨b, h1, h2⟩ := hss _ _ _ _ l hl.2.2 hB.step.inv hB.cur (flag_of hf hB.loops) ho.1 ho.2 x h
      exact ⟨b, Nat.le_trans hB.step.fr.len h1, h2⟩

/-- A branch that is built. -/
theorem branch_dead {stop : List Str} {t : Stmt} (ht : DeadList stop (bodyList t)) (hl : Laid t) {s : CfgSt} (hI : Inv s) {b after : Nat} (hb : b < s.len)
    (ha : after < s.len) (ha2 : 2 ≤ after) {l : Bool} (hf : Flag l s) (hin : s.hasIncoming b = true) (hend : (s.trm b).ends = false) {x : Stmt}
    (h : Dead stop l (bodyList t) x) : DeadAt (fun b => s.len ≤ b) (branchSt stop false t b after s) x.range := by
  have hB := (good stop).2 (bodyList t) _ _ b s (laid_body hl) hI hb
  have hlen := hB.step.fr.len
  have hst : Step (fun i => i = (buildStmts stop (bodyList t) b s).2) (fun j => j = after) (fun _ => 0) 0 (buildStmts stop (bodyList t) b s).1
      (branchSt stop false t b after s) := by
    simp only [branchSt, Bool.false_eq_true, if_false]
    exact .closeBranch hB.step.inv rfl (by omega) ha2 rfl
  refine (ht _ _ b s l (laid_body hl) hI hb hf hin hend x h).step hst ?_
  intro b' h1 _
  exact ⟨by omega, h1⟩

/-- A branch that is not built, because of its condition. -/
theorem branch_never {stop : List Str} {t : Stmt} {s : CfgSt} {b after : Nat} (hb : b < s.len) (hno : ∀ i, b ∉ s.suc i) {x : Range}
    (h : Covers t.range x) : DeadAt (fun j => j = b) (branchSt stop true t b after s) x := by
  simp only [branchSt, if_true]
  refine ⟨b, rfl, by simpa using hb, fun i => by rw [suc_pushStatement]; exact hno i, t.range, ?_, h⟩
  rw [stm_pushStatement hb]; simp

theorem dead_ifThen {stop : List Str} {r : Range} {k : Cond} {t : Stmt} (ht : DeadList stop (bodyList t)) : DeadStmt stop (.ifThen r k t) := by
  intro c st l hl hI hc hf hin hend x h
  rw [buildStmt_ifThen stop hin]
  have hll := hl
  simp only [Laid] at hl
  obtain ⟨a, b, c', d, e', f, hlp, g1, g2, g3⟩ := ifThen_stages ((good stop).2 (bodyList t)) hll hI hc
  obtain ⟨ed1, ed2⟩ := ifOpen_edges hc k
  obtain ⟨n1, n2, n3⟩ := ifOpen_no_edge hI c k
  have hlen := b.fr.len
  have two := hI.two
  have key : DeadAt (fun b => st.len ≤ b ∧ b ≠ st.len + 2) (branchSt stop (evalConst k = some false) t st.len (st.len + 2) (st.ifOpen c k)) x.range := by
    by_cases hk : evalConst k = some false
    · simp only [hk, decide_true]
      have : Covers t.range x.range := by
        cases h with
        | ifThen h => exact dead_body hl.2.2 h
        | never h => exact ⟨Nat.le_refl _, Nat.le_refl _⟩
        | loop hL => cases hL
      obtain ⟨b, rfl, h2⟩ := branch_never (stop := stop) (t := t) (after := st.len + 2) (by omega) (n2 hk) this
      exact ⟨st.len, ⟨Nat.le_refl _, by omega⟩, h2⟩
    · have hd : Dead stop l (bodyList t) x := by
        cases h with
        | ifThen h => exact h
        | never h => exact absurd ((can_true k).2 hk) h
        | loop hL => cases hL
      simp only [hk, decide_false]
      obtain ⟨b, h1, h2⟩ := branch_dead ht hl.2.2 a.inv (b := st.len) (after := st.len + 2) (by omega) (by omega) (by omega)
        (flag_of hf (loops_ifOpen ..)) ((hasIncoming_iff a.inv).2 (Or.inr ⟨c, ed1 hk⟩)) (by rw [g1.2]; rfl) hd
      exact ⟨b, ⟨by omega, by omega⟩, h2⟩
  generalize branchSt stop (evalConst k = some false) t st.len (st.len + 2) (st.ifOpen c k) = st2 at *
  have s1 : Step (fun _ => True) (fun j => j = st.len + 2) (fun _ => 0) 0 st2 (st2.setTerm (st.len + 1) .goto) := .setTerm b.inv _ trivial
  have s2 : Step (fun _ => True) (fun j => j = st.len + 2) (fun _ => 0) 0 (st2.setTerm (st.len + 1) .goto)
    ((st2.setTerm (st.len + 1) .goto).addEdge (st.len + 1) (st.len + 2)) := .addEdge s1.inv (by rw [len_setTerm]; omega) (by omega) rfl
  have s3 := (s1.trans s2).trans (.ifEnd s2.inv c (st.len + 2))
  exact key.step s3 (fun b hb _ => ⟨hb.2, hb.1⟩)

theorem dead_ifElse {stop : List Str} {r : Range} {k : Cond} {t e : Stmt} (ht : DeadList stop (bodyList t)) (he : DeadList stop (bodyList e)) :
    DeadStmt stop (.ifElse r k t e) := by
  intro c st l hl hI hc hf hin hend x h
  rw [buildStmt_ifElse stop hin]
  have hll := hl
  simp only [Laid] at hl
  obtain ⟨a, b, c', d, e', f, hlp, g1, g2, g3⟩ := ifElse_stages ((good stop).2 (bodyList t)) ((good stop).2 (bodyList e)) hll hI hc
  obtain ⟨ed1, ed2⟩ := ifOpen_edges hc k
  obtain ⟨n1, n2, n3⟩ := ifOpen_no_edge hI c k
  have hlen := b.fr.len
  have hlen2 := c'.fr.len
  have two := hI.two
  have hlp1 : (st.ifOpen c k).loops = st.loops := loops_ifOpen ..
  have b1 := Step.branchSt ((good stop).2 (bodyList t)) hl.2.2.2.1 a.inv (evalConst k = some false) (b := st.len) (after := st.len + 2)
    (lo := t.range.start) (hi := t.range.stop) (by omega) (by omega) (by omega) (Nat.le_refl _) (Nat.le_refl _)
  have b2 := Step.branchSt ((good stop).2 (bodyList e)) hl.2.2.2.2 b.inv (evalConst k = some true) (b := st.len + 1) (after := st.len + 2)
    (lo := e.range.start) (hi := e.range.stop) (by omega) (by omega) (by omega) (Nat.le_refl _) (Nat.le_refl _)
  -- what is dead in the `then` part stays so
  have fin1 : DeadAt (fun b => st.len ≤ b ∧ b ≠ st.len + 2) (branchSt stop (evalConst k = some false) t st.len (st.len + 2) (st.ifOpen c k)) x.range →
      DeadAt (fun b => st.len ≤ b) ((branchSt stop (evalConst k = some true) e (st.len + 1) (st.len + 2)
        (branchSt stop (evalConst k = some false) t st.len (st.len + 2) (st.ifOpen c k))).ifEnd c (st.len + 2)) x.range := by
    intro h
    have h1 : DeadAt (fun b => st.len ≤ b) _ x.range := h.step b2.1 (fun j hj hj' => ⟨by
      rintro (h | h)
      · exact jmp_new hI hlp hj.1 hj' h
      · exact hj.2 h, hj.1⟩)
    exact h1.step (T := fun _ => True) (J := fun _ => False) (lo := fun _ => 0) (hi := 0) (.ifEnd c'.inv c (st.len + 2)) (fun j hj _ => ⟨fun h => h, hj⟩)
  have fin2 : DeadAt (fun b => st.len ≤ b) (branchSt stop (evalConst k = some true) e (st.len + 1) (st.len + 2)
        (branchSt stop (evalConst k = some false) t st.len (st.len + 2) (st.ifOpen c k))) x.range →
      DeadAt (fun b => st.len ≤ b) ((branchSt stop (evalConst k = some true) e (st.len + 1) (st.len + 2)
        (branchSt stop (evalConst k = some false) t st.len (st.len + 2) (st.ifOpen c k))).ifEnd c (st.len + 2)) x.range := fun h =>
    h.step (T := fun _ => True) (J := fun _ => False) (lo := fun _ => 0) (hi := 0) (.ifEnd c'.inv c (st.len + 2)) (fun j hj _ => ⟨fun h => h, hj⟩)
  have cases_ : (Dead stop l (bodyList t) x ∨ (x = t ∧ ¬ Can k true)) ∨ (Dead stop l (bodyList e) x ∨ (x = e ∧ ¬ Can k false)) := by
    cases h with
    | ifElseT h => exact Or.inl (Or.inl h)
    | ifElseE h => exact Or.inr (Or.inl h)
    | neverT h => exact Or.inl (Or.inr ⟨rfl, h⟩)
    | neverE h => exact Or.inr (Or.inr ⟨rfl, h⟩)
    | loop hL => cases hL
  rcases cases_ with h | h
  · apply fin1
    by_cases hk : evalConst k = some false
    · simp only [hk, decide_true]
      have : Covers t.range x.range := by
        rcases h with h | h
        · exact dead_body hl.2.2.2.1 h
        · rw [h.1]; exact ⟨Nat.le_refl _, Nat.le_refl _⟩
      obtain ⟨b, rfl, h2⟩ := branch_never (stop := stop) (t := t) (after := st.len + 2) (by omega) (n2 hk) this
      exact ⟨st.len, ⟨Nat.le_refl _, by omega⟩, h2⟩
    · have hd : Dead stop l (bodyList t) x := by
        rcases h with h | h
        · exact h
        · exact absurd ((can_true k).2 hk) h.2
      simp only [hk, decide_false]
      obtain ⟨b, h1, h2⟩ := branch_dead ht hl.2.2.2.1 a.inv (b := st.len) (after := st.len + 2) (by omega) (by omega) (by omega)
        (flag_of hf hlp1) ((hasIncoming_iff a.inv).2 (Or.inr ⟨c, ed1 hk⟩)) (by rw [g1.2]; rfl) hd
      exact ⟨b, ⟨by omega, by omega⟩, h2⟩
  · apply fin2
    by_cases hk : evalConst k = some true
    · have : Covers e.range x.range := by
        rcases h with h | h
        · exact dead_body hl.2.2.2.2 h
        · rw [h.1]; exact ⟨Nat.le_refl _, Nat.le_refl _⟩
      have hno : ∀ i, st.len + 1 ∉ (branchSt stop (evalConst k = some false) t st.len (st.len + 2) (st.ifOpen c k)).suc i :=
        b1.1.sealed (by
          rintro (h | h)
          · exact jmp_new hI hlp1 (by omega) (by omega) h
          · omega) (n3 hk)
      have := branch_never (stop := stop) (t := e) (after := st.len + 2) (by omega) hno this
      have hd : (evalConst k = some true : Bool) = true := by simp [hk]
      rw [hd]
      obtain ⟨b, rfl, h2⟩ := this
      exact ⟨st.len + 1, by omega, h2⟩
    · have hd : Dead stop l (bodyList e) x := by
        rcases h with h | h
        · exact h
        · exact absurd ((can_false k).2 hk) h.2
      have hdec : (evalConst k = some true : Bool) = false := by simp [hk]
      rw [hdec]
      obtain ⟨b', h1, h2⟩ := branch_dead he hl.2.2.2.2 b.inv (b := st.len + 1) (after := st.len + 2) (by omega) (by omega) (by omega)
        (flag_of hf hlp) (hasIncoming_mono b.fr ((hasIncoming_iff a.inv).2 (Or.inr ⟨c, ed2 hk⟩))) (by rw [g2.2]; rfl) hd
      exact ⟨b', by omega, h2⟩

theorem flag_loopOpen (st : CfgSt) (c : Nat) : Flag true (st.loopOpen c) := by
  simp [Flag, CfgSt.loopOpen]

theorem flag_repeatOpen (st : CfgSt) (c : Nat) : Flag true (st.repeatOpen c) := by
  simp [Flag, CfgSt.repeatOpen]

theorem dead_loop {stop : List Str} {L : Stmt} {r : Range} {b : Stmt} (hL : IsLoop L r b) (hb : DeadList stop (bodyList b))
    (hlaid : Laid L → r.start < b.range.start ∧ b.range.stop ≤ r.stop ∧ Laid b)
    (hbuild : ∀ c st, st.hasIncoming c = true → buildStmt stop L false c st =
      ((buildStmts stop (bodyList b) (st.len + 1) (st.loopOpen c)).1.loopClose
        (buildStmts stop (bodyList b) (st.len + 1) (st.loopOpen c)).2 st.len, st.len + 2)) : DeadStmt stop L := by
  intro c st l hl hI hc hf hin hend x h
  rw [hbuild _ _ hin]
  obtain ⟨l1, l2, l3⟩ := hlaid hl
  obtain ⟨a, b', c', e, f, g1, g2⟩ := loop_stages ((good stop).2 (bodyList b)) l1 l2 l3 hI hc
  have hB := (good stop).2 (bodyList b) _ _ (st.len + 1) (st.loopOpen c) (laid_body l3) a.inv (by omega)
  have hlen := hB.step.fr.len
  have hd : Dead stop true (bodyList b) x := by
    cases hL <;> cases h with
    | loop hL h => cases hL; exact h
  refine (hb _ _ (st.len + 1) (st.loopOpen c) true (laid_body l3) a.inv (by omega) (flag_loopOpen ..)
    ((hasIncoming_iff a.inv).2 (Or.inr ⟨_, (loopOpen_edges hc).2.1⟩)) (by rw [g1.2]; rfl) x hd).step
    (T := fun _ => True) (J := fun j => j = st.len) (lo := fun _ => 0) (hi := 0)
    (.loopClose hB.step.inv trivial (by omega) hI.two rfl) (fun j hj _ => ⟨by omega, by omega⟩)

theorem dead_repeat {stop : List Str} {r : Range} {b : Stmt} (hb : DeadList stop (bodyList b)) : DeadStmt stop (.repeats r b) := by
  intro c st l hl hI hc hf hin hend x h
  rw [buildStmt_repeats stop hin]
  simp only [Laid] at hl
  obtain ⟨l1, l2, l3⟩ := hl
  obtain ⟨a, b', c', e, f, g1, g2⟩ := repeat_stages ((good stop).2 (bodyList b)) l1 l2 l3 hI hc
  have hB := (good stop).2 (bodyList b) _ _ st.len (st.repeatOpen c) (laid_body l3) a.inv (by omega)
  have hlen := hB.step.fr.len
  have hd : Dead stop true (bodyList b) x := by
    cases h with
    | loop hL h => cases hL; exact h
  refine (hb _ _ st.len (st.repeatOpen c) true (laid_body l3) a.inv (by omega) (flag_repeatOpen ..)
    ((hasIncoming_iff a.inv).2 (Or.inr ⟨_, (repeatOpen_edges hc).1⟩)) (by rw [g1.2]; rfl) x hd).step
    (T := fun _ => True) (J := fun j => j = st.len) (lo := fun _ => 0) (hi := 0)
    (.loopClose hB.step.inv trivial (by omega) hI.two rfl) (fun j hj _ => ⟨by omega, by omega⟩)

theorem dead_all (stop : List Str) : (∀ x, DeadStmt stop x) ∧ (∀ ss, DeadList stop ss) := by
  apply Stmt.both
  · intro lo hi c st l _ _ _ _ _ _ x h; cases h
  · intro s ss; exact dead_cons
  · intro r c st l _ _ _ _ _ _ x h; cases h with | loop hL => cases hL
  · intro r c st l _ _ _ _ _ _ x h; cases h with | loop hL => cases hL
  · intro r c st l _ _ _ _ _ _ x h; cases h with | loop hL => cases hL
  · intro r f c st l _ _ _ _ _ _ x h; cases h with | loop hL => cases hL
  · intro r c st l _ _ _ _ _ _ x h; cases h with | loop hL => cases hL
  · intro r ss _ c st l _ _ _ _ _ _ x h; cases h with | loop hL => cases hL
  · intro r k t; exact dead_ifThen
  · intro r k t e; exact dead_ifElse
  · intro r b h; exact dead_loop .fors h (by simp only [Laid]; exact id) (fun c st => buildStmt_fors stop)
  · intro r k b h; exact dead_loop .whiles h (by simp only [Laid]; exact id) (fun c st => buildStmt_whiles stop)
  · intro r b h; exact dead_repeat h

end Jarl

import Verif.Lemmas.CfgReport

/-!
# The statements of a block are in order, and unreachable blocks are reported whole
-/

namespace Jarl

open Jarl.Spec

/-- In every block, statements are in the order of the text. -/
def Sorted (st : CfgSt) : Prop := ∀ b, (st.stm b).Pairwise (fun x y => x.stop ≤ y.start)

/-- Everything in block `c` is before `lo`. -/
def Before (st : CfgSt) (c lo : Nat) : Prop := ∀ r ∈ st.stm c, r.stop ≤ lo

theorem stm_newBlock (st : CfgSt) (b) : st.newBlock.stm b = st.stm b := by simp [CfgSt.stm]
theorem stm_setTerm (st : CfgSt) (c t b) : (st.setTerm c t).stm b = st.stm b := by
  simp only [CfgSt.setTerm, CfgSt.stm, blk_upd]; split <;> rfl
theorem stm_addEdge (st : CfgSt) (x y b) : (st.addEdge x y).stm b = st.stm b :=
  (Fr.addEdge (fun _ => False) st x y).stm b (fun h => h)
theorem stm_addPred (st : CfgSt) (x y b) : (st.addPred x y).stm b = st.stm b :=
  (Fr.addPred (fun _ => False) st x y).stm b (fun h => h)
theorem stm_setLoops (st : CfgSt) (l b) : CfgSt.stm { st with loops := l } b = st.stm b := rfl

theorem stm_ifOpen (st : CfgSt) (c k b) : (st.ifOpen c k).stm b = st.stm b := by
  unfold CfgSt.ifOpen; split <;> simp only [stm_addPred, stm_addEdge, stm_setTerm, stm_newBlock]
theorem stm_closeBranch (st : CfgSt) (x y b) : (st.closeBranch x y).stm b = st.stm b := by
  unfold CfgSt.closeBranch; split <;> simp only [stm_addEdge, stm_setTerm]
theorem stm_ifEnd (st : CfgSt) (x y b) : (st.ifEnd x y).stm b = st.stm b := by
  unfold CfgSt.ifEnd; split <;> simp only [stm_addPred]
theorem stm_loopOpen (st : CfgSt) (c b) : (st.loopOpen c).stm b = st.stm b := by
  unfold CfgSt.loopOpen; simp only [stm_setLoops, stm_addEdge, stm_setTerm, stm_newBlock]
theorem stm_repeatOpen (st : CfgSt) (c b) : (st.repeatOpen c).stm b = st.stm b := by
  unfold CfgSt.repeatOpen; simp only [stm_addEdge]; simp only [stm_setLoops, stm_addEdge, stm_setTerm, stm_newBlock]
theorem stm_loopClose (st : CfgSt) (x y b) : (st.loopClose x y).stm b = st.stm b := by
  unfold CfgSt.loopClose; simp only [stm_setLoops]; split <;> simp only [stm_addEdge, stm_setTerm]
theorem stm_buildBreak (st : CfgSt) (c b) : (st.buildBreak c).stm b = st.stm b := by
  unfold CfgSt.buildBreak; split <;> simp only [stm_addEdge, stm_setTerm]
theorem stm_buildNext (st : CfgSt) (c b) : (st.buildNext c).stm b = st.stm b := by
  unfold CfgSt.buildNext; split <;> simp only [stm_addEdge, stm_setTerm]

theorem Sorted.same {st st' : CfgSt} (h : Sorted st) (hs : ∀ b, st'.stm b = st.stm b) : Sorted st' := fun b => by
  rw [hs]; exact h b

theorem sorted_upd {st st' : CfgSt} (h : Sorted st) {c : Nat} {r : Range} (h1 : st'.stm c = st.stm c ++ [r] ∨ st'.stm c = st.stm c)
    (h2 : ∀ b, b ≠ c → st'.stm b = st.stm b) (hb : Before st c r.start) : Sorted st' := by
  intro b
  by_cases hbc : b = c
  · subst hbc
    rcases h1 with h1 | h1 <;> rw [h1]
    · rw [List.pairwise_append]
      exact ⟨h b, by simp, fun a ha y hy => by rw [List.mem_singleton.1 hy]; exact hb a ha⟩
    · exact h b
  · rw [h2 b hbc]; exact h b

theorem Sorted.addStatement {st : CfgSt} (h : Sorted st) {c : Nat} {r : Range} (hb : Before st c r.start) : Sorted (st.addStatement c r) := by
  refine sorted_upd h (c := c) (r := r) ?_ ?_ hb
  · simp only [CfgSt.addStatement, CfgSt.stm, blk_upd]; split <;> simp
  · intro b hbc; exact (Fr.addStatement (T := fun i => i = c) st r rfl).stm b hbc

theorem Sorted.pushStatement {st : CfgSt} (h : Sorted st) {c : Nat} {r : Range} (hb : Before st c r.start) : Sorted (st.pushStatement c r) := by
  refine sorted_upd h (c := c) (r := r) ?_ ?_ hb
  · simp only [CfgSt.pushStatement, CfgSt.stm, blk_upd]; split <;> simp
  · intro b hbc; exact (Fr.pushStatement (T := fun i => i = c) st r rfl).stm b hbc

theorem before_of_nil {st : CfgSt} {c lo : Nat} (h : st.stm c = []) : Before st c lo := by
  intro r hr; rw [h] at hr; cases hr

theorem before_new {st : CfgSt} {c lo : Nat} (h : st.len ≤ c) : Before st c lo := before_of_nil (fresh_new h).1

theorem Built.before {lo lo' hi c : Nat} {st : CfgSt} {p : CfgSt × Nat} (h : Built lo lo' hi c st p) (hb : Before st c lo)
    (hlo : lo ≤ hi) : Before p.1 p.2 hi := by
  intro r hr
  obtain ⟨e, he, hreg⟩ := h.step.stm p.2
  rw [he] at hr
  rcases List.mem_append.1 hr with hr | hr
  · rcases h.cur' with h' | h'
    · rw [h'] at hr; exact Nat.le_trans (hb r hr) hlo
    · rw [(fresh_new h').1] at hr; cases hr
  · exact (hreg r hr).2.2

theorem sorted_dead (u : Nat) : ∀ (ss : List Stmt) (lo hi : Nat) (st : CfgSt), LaidSeq lo hi ss → Sorted st → Before st u lo →
    Sorted ((ss.map Stmt.range).foldl (fun st r => st.addStatement u r) st) := by
  intro ss
  induction ss with
  | nil => intro lo hi st _ h _; exact h
  | cons s ss ih =>
    intro lo hi st hl h hb
    simp only [LaidSeq] at hl
    simp only [List.map_cons, List.foldl_cons]
    have hb' : Before st u s.range.start := fun r hr => Nat.le_trans (hb r hr) hl.1
    refine ih _ hi _ hl.2.2 (h.addStatement hb') ?_
    have hp := laid_pos s hl.2.1
    intro r hr
    have : (st.addStatement u s.range).stm u = st.stm u ++ [s.range] ∨ (st.addStatement u s.range).stm u = st.stm u := by
      simp only [CfgSt.addStatement, CfgSt.stm, blk_upd]; split <;> simp
    rcases this with h' | h' <;> rw [h'] at hr
    · rcases List.mem_append.1 hr with hr | hr
      · have := hb r hr; omega
      · rw [List.mem_singleton.1 hr]; exact Nat.le_refl _
    · have := hb r hr; omega

def SortedStmt (stop : List Str) (s : Stmt) : Prop :=
  ∀ c st, Laid s → Inv st → c < st.len → Sorted st → Before st c s.range.start → Sorted (buildStmt stop s false c st).1

def SortedList (stop : List Str) (ss : List Stmt) : Prop :=
  ∀ lo hi c st, LaidSeq lo hi ss → Inv st → c < st.len → Sorted st → Before st c lo → Sorted (buildStmts stop ss c st).1

theorem sorted_branch {stop : List Str} {t : Stmt} (ht : SortedList stop (bodyList t)) (hl : Laid t) {s : CfgSt} (hI : Inv s) {b after : Nat}
    (hb : b < s.len) (hs : Sorted s) (hn : s.stm b = []) (dead : Bool) : Sorted (branchSt stop dead t b after s) := by
  unfold branchSt
  split
  · exact hs.pushStatement (before_of_nil hn)
  · exact (ht _ _ b s (laid_body hl) hI hb hs (before_of_nil hn)).same (stm_closeBranch _ _ _)

theorem sorted_all (stop : List Str) : (∀ s, SortedStmt stop s) ∧ (∀ ss, SortedList stop ss) := by
  have live : ∀ s, (∀ c (st : CfgSt), Laid s → Inv st → c < st.len → Sorted st → Before st c s.range.start → st.hasIncoming c = true →
      Sorted (buildStmt stop s false c st).1) → SortedStmt stop s := by
    intro s h c st hl hI hc hs hb
    cases hin : st.hasIncoming c with
    | true => exact h c st hl hI hc hs hb hin
    | false => rw [buildStmt_dead stop hin]; exact hs.addStatement hb
  have loop : ∀ (L : Stmt) (r : Range) (b : Stmt), SortedList stop (bodyList b) → (Laid L → r.start < b.range.start ∧ b.range.stop ≤ r.stop ∧ Laid b) →
      (∀ c (st : CfgSt), st.hasIncoming c = true → buildStmt stop L false c st =
      ((buildStmts stop (bodyList b) (st.len + 1) (st.loopOpen c)).1.loopClose
        (buildStmts stop (bodyList b) (st.len + 1) (st.loopOpen c)).2 st.len, st.len + 2)) → SortedStmt stop L := by
    intro L r b hb hlaid hbuild
    apply live
    intro c st hl hI hc hs _ hin
    obtain ⟨l1, l2, l3⟩ := hlaid hl
    obtain ⟨a, b', c', e, f, g1, g2⟩ := loop_stages ((good stop).2 (bodyList b)) l1 l2 l3 hI hc
    rw [hbuild _ _ hin]
    exact (hb _ _ (st.len + 1) _ (laid_body l3) a.inv (by omega) (hs.same (stm_loopOpen _ _)) (before_of_nil g1.1)).same (stm_loopClose _ _ _)
  apply Stmt.both
  · intro lo hi c st _ _ _ hs _; exact hs
  · intro s ss ihs ihss lo hi c st hl hI hc hs hb
    have hll := hl
    simp only [LaidSeq] at hl
    have hp := laid_pos s hl.2.1
    have hb' : Before st c s.range.start := fun r hr => Nat.le_trans (hb r hr) hl.1
    have h1 := ihs c st hl.2.1 hI hc hs hb'
    obtain ⟨hB, -⟩ := (good stop).1 s c st hl.2.1 hI hc
    have hbef := hB.before hb' (Nat.le_of_lt hp)
    simp only [buildStmts]
    split
    · unfold CfgSt.deadBlock
      refine sorted_dead _ ss _ hi _ hl.2.2 (h1.same (fun b => by rw [stm_addPred, stm_newBlock])) ?_
      apply before_of_nil
      rw [stm_addPred, stm_newBlock]
      exact (fresh_new (Nat.le_refl _)).1
    · exact ihss _ hi _ _ hl.2.2 hB.step.inv hB.cur h1 hbef
  · intro r; apply live; intro c st _ _ _ hs _ hin
    simp only [buildStmt, hin, Bool.true_eq_false, if_false]; exact hs.same (stm_buildBreak _ _)
  · intro r; apply live; intro c st _ _ _ hs _ hin
    simp only [buildStmt, hin, Bool.true_eq_false, if_false]; exact hs.same (stm_buildNext _ _)
  · intro r; apply live; intro c st _ _ _ hs _ hin
    simp only [buildStmt, hin, Bool.true_eq_false, if_false]; exact hs.same (stm_setTerm _ _ _)
  · intro r f; apply live; intro c st _ _ _ hs hb hin
    simp only [buildStmt, hin, Bool.true_eq_false, if_false, CfgSt.buildCall]
    split
    · exact hs.same (stm_setTerm _ _ _)
    · split
      · exact hs.same (stm_buildBreak _ _)
      · split
        · exact hs.same (stm_buildNext _ _)
        · split
          · exact hs.same (stm_setTerm _ _ _)
          · exact hs.addStatement hb
  · intro r c st _ _ _ hs hb
    simp only [buildStmt]; exact hs.addStatement hb
  · intro r ss _ c st _ _ _ hs hb
    simp only [buildStmt]; exact hs.addStatement hb
  · intro r k t ht; apply live; intro c st hl hI hc hs _ hin
    rw [buildStmt_ifThen stop hin]
    obtain ⟨a, b, c', d, e', f, hlp, g1, g2, g3⟩ := ifThen_stages ((good stop).2 (bodyList t)) hl hI hc
    simp only [Laid] at hl
    have := sorted_branch (after := st.len + 2) ht hl.2.2 a.inv (by omega) (hs.same (stm_ifOpen _ c k)) g1.1 (evalConst k = some false)
    exact this.same (fun b => by rw [stm_ifEnd, stm_addEdge, stm_setTerm])
  · intro r k t e ht he; apply live; intro c st hl hI hc hs _ hin
    rw [buildStmt_ifElse stop hin]
    obtain ⟨a, b, c', d, e', f, hlp, g1, g2, g3⟩ := ifElse_stages ((good stop).2 (bodyList t)) ((good stop).2 (bodyList e)) hl hI hc
    simp only [Laid] at hl
    have hlen := b.fr.len
    have h1 := sorted_branch (after := st.len + 2) ht hl.2.2.2.1 a.inv (by omega) (hs.same (stm_ifOpen _ c k)) g1.1 (evalConst k = some false)
    have h2 := sorted_branch (after := st.len + 2) he hl.2.2.2.2 b.inv (by omega) h1 g2.1 (evalConst k = some true)
    exact h2.same (stm_ifEnd _ _ _)
  · intro r b hb; exact loop _ r b hb (by simp only [Laid]; exact id) (fun c st h => buildStmt_fors stop h)
  · intro r k b hb; exact loop _ r b hb (by simp only [Laid]; exact id) (fun c st h => buildStmt_whiles stop h)
  · intro r b hb; apply live; intro c st hl hI hc hs _ hin
    rw [buildStmt_repeats stop hin]
    simp only [Laid] at hl
    obtain ⟨a, b', c', e, f, g1, g2⟩ := repeat_stages ((good stop).2 (bodyList b)) hl.1 hl.2.1 hl.2.2 hI hc
    exact (hb _ _ st.len _ (laid_body hl.2.2) a.inv (by omega) (hs.same (stm_repeatOpen _ _)) (before_of_nil g1.1)).same (stm_loopClose _ _ _)

/-! ## The reported ranges -/

theorem pairwise_first {l : List Range} (hw : ∀ r ∈ l, r.start < r.stop) (h : l.Pairwise (fun x y => x.stop ≤ y.start)) {a : Range} {t : List Range}
    (hl : l = a :: t) : ∀ r ∈ l, a.start ≤ r.start := by
  subst hl
  intro r hr
  rcases List.mem_cons.1 hr with rfl | hr
  · exact Nat.le_refl _
  · have h1 := (List.pairwise_cons.1 h).1 r hr
    have := hw a (List.mem_cons_self ..)
    omega

theorem pairwise_last {l : List Range} (hw : ∀ r ∈ l, r.start < r.stop) (h : l.Pairwise (fun x y => x.stop ≤ y.start)) {a : Range}
    (hl : l.getLast? = some a) : ∀ r ∈ l, r.stop ≤ a.stop := by
  rw [List.getLast?_eq_some_iff] at hl
  obtain ⟨t, rfl⟩ := hl
  intro r hr
  rcases List.mem_append.1 hr with hr | hr
  · have h1 := (List.pairwise_append.1 h).2.2 r hr a (by simp)
    have := hw a (by simp)
    omega
  · rw [List.mem_singleton.1 hr]; exact Nat.le_refl _

theorem blockRange_covers {k : Block} (hw : ∀ r ∈ k.stmts, r.start < r.stop) (h : k.stmts.Pairwise (fun x y => x.stop ≤ y.start)) {r : Range}
    (hr : r ∈ k.stmts) : ∃ q, blockRange k = some q ∧ Covers q r := by
  cases hs : k.stmts with
  | nil => rw [hs] at hr; cases hr
  | cons a t =>
    refine ⟨_, by unfold blockRange; rw [hs], ?_⟩
    have h1 := pairwise_first hw h hs r hr
    have h2 : r.stop ≤ ((a :: t).getLast?.getD a).stop := by
      have hlast : (a :: t).getLast? = some ((a :: t).getLast (List.cons_ne_nil _ _)) := List.getLast?_eq_some_getLast _
      rw [hlast]
      exact pairwise_last hw h (by rw [hs]; exact hlast) r hr
    simp only [Covers, Range.cover]
    omega

/-- Grouping keeps everything, with its reason. -/
theorem groupLoop_covers : ∀ (l : List (Range × Reason)) (cur : Option (Range × Reason)) (y : Range × Reason),
    y ∈ cur.toList ++ l → ∃ z ∈ groupLoop cur l, z.2 = y.2 ∧ Covers z.1 y.1 := by
  intro l
  induction l with
  | nil =>
    intro cur y hy
    cases cur with
    | none => cases hy
    | some k => exact ⟨k, by simp [groupLoop], by simp at hy; rw [hy]; exact ⟨rfl, Nat.le_refl _, Nat.le_refl _⟩⟩
  | cons x l ih =>
    intro cur y hy
    cases cur with
    | none => exact ih (some x) y (by simpa using hy)
    | some k =>
      simp only [groupLoop]
      split
      · rename_i hcond
        have hy' : y = k ∨ y = x ∨ y ∈ l := by simpa using hy
        rcases hy' with rfl | rfl | hy'
        · obtain ⟨z, hz, h1, h2⟩ := ih (some (y.1.cover x.1, y.2)) (y.1.cover x.1, y.2) (by simp)
          refine ⟨z, hz, h1, ?_⟩
          simp only [Covers, Range.cover] at *; omega
        · obtain ⟨z, hz, h1, h2⟩ := ih (some (k.1.cover y.1, k.2)) (k.1.cover y.1, k.2) (by simp)
          refine ⟨z, hz, by rw [h1]; exact hcond.1, ?_⟩
          simp only [Covers, Range.cover] at *; omega
        · exact ih _ y (by simp [hy'])
      · have hy' : y = k ∨ y = x ∨ y ∈ l := by simpa using hy
        rcases hy' with rfl | hy'
        · exact ⟨y, List.mem_cons_self .., rfl, Nat.le_refl _, Nat.le_refl _⟩
        · obtain ⟨z, hz, h⟩ := ih (some x) y (by simpa using hy')
          exact ⟨z, List.mem_cons_of_mem _ hz, h⟩

theorem not_rch {F : CfgSt} {b : Nat} (h0 : b ≠ 0) (h : ∀ i, b ∉ F.suc i) : ¬ Rch F b := by
  intro hr
  cases hr with
  | zero => exact h0 rfl
  | step _ hj => exact h _ hj

/-- A statement of a block without incoming edges is reported, for the reason of that block. -/
theorem reported_of_dead (stop : List Str) (ss : List Stmt) {lo hi : Nat} (hl : LaidSeq lo hi ss) {b : Nat} {r : Range}
    (h2 : 2 ≤ b) (hlen : b < (buildStmts stop ss 0 .init).1.len) (hno : ∀ i, b ∉ (buildStmts stop ss 0 .init).1.suc i)
    (hr : r ∈ (buildStmts stop ss 0 .init).1.stm b) :
    ∃ z ∈ findUnreachable (buildStmts stop ss 0 .init).1.blocks, z.2 = reasonOf (buildStmts stop ss 0 .init).1.blocks b ∧
      ∀ r ∈ (buildStmts stop ss 0 .init).1.stm b, Covers z.1 r := by
  have hB := ((good stop).2 ss lo hi 0 .init hl inv_init (by decide)).step
  have hinit : ∀ i, CfgSt.init.stm i = [] := by
    intro i
    match i with
    | 0 => rfl
    | 1 => rfl
    | i + 2 => rfl
  have hsort := (sorted_all stop).2 ss lo hi 0 .init hl inv_init (by decide) (fun b => by rw [hinit]; exact .nil) (before_of_nil (hinit 0))
  generalize (buildStmts stop ss 0 .init).1 = F at *
  have hw : ∀ b, ∀ r ∈ F.stm b, r.start < r.stop := by
    intro b r hr
    obtain ⟨e, he, hreg⟩ := hB.stm b
    rw [he, hinit, List.nil_append] at hr
    exact (hreg r hr).2.1
  obtain ⟨q, hq, -⟩ := blockRange_covers (hw b) (hsort b) hr
  have hall : ∀ r ∈ F.stm b, Covers q r := by
    intro r hr
    obtain ⟨q', hq', hc⟩ := blockRange_covers (hw b) (hsort b) hr
    have : q' = q := by rw [hq] at hq'; cases hq'; rfl
    rw [← this]; exact hc
  have hmem : (q, reasonOf F.blocks b) ∈ unreachableBlocks F.blocks :=
    mem_unreachableBlocks.2 ⟨b, hlen, by omega, by omega, not_rch (by omega) hno, hq, rfl⟩
  obtain ⟨z, hz, h1, h2⟩ := groupLoop_covers (sortByStart (unreachableBlocks F.blocks)) none (q, reasonOf F.blocks b) (by simpa using mem_sortByStart.2 hmem)
  refine ⟨z, hz, h1, ?_⟩
  intro r hr
  have := hall r hr
  simp only [Covers] at *; omega

end Jarl

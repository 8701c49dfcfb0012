import Verif.Lemmas.CfgSound

/-!
# Depth-first search, ranges of blocks, grouping
-/

namespace Jarl

open Jarl.Spec

/-! ## The search visits exactly the reachable blocks -/

/-- Successors that remain to be queued. -/
def unseen (f : Nat → Nat) (n : Nat) (V : List Nat) : Nat := ((List.range n).map (fun i => if V.contains i then 0 else f i)).sum

theorem unseen_cons {f : Nat → Nat} {n : Nat} {V : List Nat} {b : Nat} (hb : V.contains b = false) (hf : n ≤ b → f b = 0) :
    unseen f n (b :: V) + f b = unseen f n V := by
  have key : ∀ m, unseen f m (b :: V) + (if b < m then f b else 0) = unseen f m V := by
    intro m
    induction m with
    | zero => simp [unseen]
    | succ m ih =>
      simp only [unseen, List.range_succ, List.map_append, List.map_cons, List.map_nil, List.sum_append, List.sum_cons, List.sum_nil] at *
      by_cases hm : m = b
      · subst hm
        rw [if_neg (Nat.lt_irrefl _)] at ih
        have hb' : m ∉ V := by simpa using hb
        simp [hb'] at ih ⊢
        omega
      · have h2 : (b :: V).contains m = V.contains m := by
          rw [Bool.eq_iff_iff]
          simp [hm]
        rw [h2]
        have h3 : (if b < m + 1 then f b else 0) = if b < m then f b else 0 := by
          by_cases h1 : b < m
          · rw [if_pos h1, if_pos (Nat.lt_succ_of_lt h1)]
          · rw [if_neg h1, if_neg (by omega)]
        rw [h3]
        omega
  have := key n
  by_cases h : b < n
  · rw [if_pos h] at this; exact this
  · rw [if_neg h] at this
    rw [hf (by omega)]; exact this

theorem edgeCount_eq (g : List Block) : edgeCount g = unseen (fun i => (blockAt g i).succs.length) g.length [] := by
  unfold edgeCount unseen
  congr 1
  apply List.ext_getElem
  · simp
  · intro i h1 h2
    simp at h1
    simp [blockAt, List.getD_eq_getElem?_getD, List.getElem?_eq_getElem h1]

theorem reachLoop_closed (g : List Block) : ∀ (fuel : Nat) (V Q : List Nat),
    Q.length + unseen (fun i => (blockAt g i).succs.length) g.length V ≤ fuel →
    (∀ v ∈ V, ∀ s ∈ (blockAt g v).succs, s ∈ V ∨ s ∈ Q) →
    (∀ x, x ∈ V ∨ x ∈ Q → x ∈ reachLoop g fuel V Q) ∧
    (∀ v ∈ reachLoop g fuel V Q, ∀ s ∈ (blockAt g v).succs, s ∈ reachLoop g fuel V Q) := by
  intro fuel
  induction fuel with
  | zero =>
    intro V Q hf hc
    have : Q = [] := by cases Q with
      | nil => rfl
      | cons a l => simp at hf
    subst this
    simp only [reachLoop]
    exact ⟨fun x h => by simpa using h, fun v hv s hs => by simpa using hc v hv s hs⟩
  | succ n ih =>
    intro V Q hf hc
    cases Q with
    | nil =>
      simp only [reachLoop]
      exact ⟨fun x h => by simpa using h, fun v hv s hs => by simpa using hc v hv s hs⟩
    | cons b Q =>
      simp only [reachLoop]
      split
      · rename_i hb
        have hb : b ∈ V := by simpa using hb
        obtain ⟨h1, h2⟩ := ih V Q (by simp at hf; omega) (by
          intro v hv s hs
          rcases hc v hv s hs with h | h
          · exact Or.inl h
          · rcases List.mem_cons.1 h with rfl | h
            · exact Or.inl hb
            · exact Or.inr h)
        refine ⟨?_, h2⟩
        rintro x (h | h)
        · exact h1 x (Or.inl h)
        · rcases List.mem_cons.1 h with rfl | h
          · exact h1 _ (Or.inl hb)
          · exact h1 x (Or.inr h)
      · rename_i hb
        have hb : V.contains b = false := by simpa using hb
        have hu := unseen_cons (f := fun i => (blockAt g i).succs.length) (n := g.length) hb (by
          intro h
          simp [blockAt, List.getD_eq_getElem?_getD, List.getElem?_eq_none h])
        have hlen := List.length_filter_le (fun s => !(b :: V).contains s) (blockAt g b).succs
        simp only [List.length_cons] at hf
        obtain ⟨h1, h2⟩ := ih (b :: V) (((blockAt g b).succs.filter (fun s => !(b :: V).contains s)).reverse ++ Q) (by
          simp only [List.length_append, List.length_reverse]
          omega) (by
          intro v hv s hs
          by_cases hsV : s ∈ b :: V
          · exact Or.inl hsV
          · right
            rcases List.mem_cons.1 hv with rfl | hv
            · apply List.mem_append_left
              rw [List.mem_reverse, List.mem_filter]
              exact ⟨hs, by simpa using hsV⟩
            · rcases hc v hv s hs with h | h
              · exact absurd (List.mem_cons_of_mem _ h) hsV
              · rcases List.mem_cons.1 h with rfl | h
                · exact absurd (List.mem_cons_self ..) hsV
                · exact List.mem_append_right _ h)
        refine ⟨?_, h2⟩
        rintro x (h | h)
        · exact h1 x (Or.inl (List.mem_cons_of_mem _ h))
        · rcases List.mem_cons.1 h with rfl | h
          · exact h1 _ (Or.inl (List.mem_cons_self ..))
          · exact h1 x (Or.inr (List.mem_append_right _ h))

theorem reachLoop_only (g : List Block) {P : Nat → Prop} (hP : ∀ v, P v → ∀ s ∈ (blockAt g v).succs, P s) :
    ∀ (fuel : Nat) (V Q : List Nat), (∀ v ∈ V, P v) → (∀ v ∈ Q, P v) → ∀ v ∈ reachLoop g fuel V Q, P v := by
  intro fuel
  induction fuel with
  | zero => intro V Q h _; exact h
  | succ n ih =>
    intro V Q hV hQ
    cases Q with
    | nil => exact hV
    | cons b Q =>
      simp only [reachLoop]
      split
      · exact ih V Q hV (fun v hv => hQ v (List.mem_cons_of_mem _ hv))
      · have hb := hQ b (List.mem_cons_self ..)
        apply ih
        · intro v hv
          rcases List.mem_cons.1 hv with rfl | hv
          · exact hb
          · exact hV v hv
        · intro v hv
          rcases List.mem_append.1 hv with hv | hv
          · rw [List.mem_reverse, List.mem_filter] at hv
            exact hP b hb v hv.1
          · exact hQ v (List.mem_cons_of_mem _ hv)

/-- `find_reachable_blocks` computes the blocks reachable from the entry. -/
theorem mem_reachable (F : CfgSt) (b : Nat) : b ∈ reachable F.blocks ↔ Rch F b := by
  constructor
  · intro h
    refine reachLoop_only F.blocks (P := Rch F) ?_ _ [] [0] (by simp) ?_ b h
    · intro v hv s hs; exact .step hv hs
    · intro v hv; rw [List.mem_singleton.1 hv]; exact .zero
  · intro h
    obtain ⟨h1, h2⟩ := reachLoop_closed F.blocks (edgeCount F.blocks + 1) [] [0] (by rw [edgeCount_eq]; simp; omega) (by simp)
    induction h with
    | zero => exact h1 0 (Or.inr (by simp))
    | step _ hj ih => exact h2 _ ih _ hj

/-! ## Properties preserved by the elementary operations of the builder -/

structure Preserved (P : CfgSt → Prop) : Prop where
  newBlock : ∀ st, P st → P st.newBlock
  setTerm : ∀ st c t, P st → P (st.setTerm c t)
  addEdge : ∀ st a b, P st → P (st.addEdge a b)
  addPred : ∀ st a b, P st → P (st.addPred a b)
  addStatement : ∀ st a r, P st → P (st.addStatement a r)
  pushStatement : ∀ st a r, P st → P (st.pushStatement a r)
  loops : ∀ (st : CfgSt) l, P st → P { st with loops := l }

theorem Preserved.build {P : CfgSt → Prop} (h : Preserved P) (stop : List Str) :
    (∀ s, ∀ c st, P st → P (buildStmt stop s false c st).1) ∧ (∀ ss, ∀ c st, P st → P (buildStmts stop ss c st).1) := by
  have hopen : ∀ (st : CfgSt) c k, P st → P (st.ifOpen c k) := by
    intro st c k hp
    unfold CfgSt.ifOpen
    have := h.setTerm _ c .branch (h.newBlock _ (h.newBlock _ (h.newBlock _ hp)))
    split
    · exact h.addPred _ _ _ (h.addEdge _ _ _ this)
    · exact h.addPred _ _ _ (h.addEdge _ _ _ this)
    · exact h.addEdge _ _ _ (h.addEdge _ _ _ this)
  have hclose : ∀ (st : CfgSt) c k, P st → P (st.closeBranch c k) := by
    intro st c k hp
    unfold CfgSt.closeBranch
    split
    · exact h.addEdge _ _ _ (h.setTerm _ _ _ hp)
    · exact hp
  have hend : ∀ (st : CfgSt) c k, P st → P (st.ifEnd c k) := by
    intro st c k hp
    unfold CfgSt.ifEnd
    split
    · exact h.addPred _ _ _ hp
    · exact hp
  have hlclose : ∀ (st : CfgSt) c k, P st → P (st.loopClose c k) := by
    intro st c k hp
    unfold CfgSt.loopClose
    apply h.loops
    split
    · exact h.addEdge _ _ _ (h.setTerm _ _ _ hp)
    · exact hp
  have hlopen : ∀ (st : CfgSt) c, P st → P (st.loopOpen c) := by
    intro st c hp
    unfold CfgSt.loopOpen
    apply h.loops
    exact h.addEdge _ _ _ (h.addEdge _ _ _ (h.setTerm _ _ _ (h.addEdge _ _ _ (h.setTerm _ _ _ (h.newBlock _ (h.newBlock _ (h.newBlock _ hp)))))))
  have hropen : ∀ (st : CfgSt) c, P st → P (st.repeatOpen c) := by
    intro st c hp
    unfold CfgSt.repeatOpen
    apply h.addEdge
    apply h.loops
    exact h.addEdge _ _ _ (h.setTerm _ _ _ (h.newBlock _ (h.newBlock _ hp)))
  have hdead : ∀ (st : CfgSt) c l, P st → P (st.deadBlock c l) := by
    intro st c l hp
    unfold CfgSt.deadBlock
    have : ∀ (l : List Range) u (s : CfgSt), P s → P (l.foldl (fun st r => st.addStatement u r) s) := by
      intro l u
      induction l with
      | nil => intro s hs; exact hs
      | cons a l ih => intro s hs; exact ih _ (h.addStatement _ _ _ hs)
    exact this _ _ _ (h.addPred _ _ _ (h.newBlock _ hp))
  have hbrk : ∀ (st : CfgSt) c, P st → P (st.buildBreak c) := by
    intro st c hp
    unfold CfgSt.buildBreak
    split
    · exact h.addEdge _ _ _ (h.setTerm _ _ _ hp)
    · exact hp
  have hnxt : ∀ (st : CfgSt) c, P st → P (st.buildNext c) := by
    intro st c hp
    unfold CfgSt.buildNext
    split
    · exact h.addEdge _ _ _ (h.setTerm _ _ _ hp)
    · exact hp
  have hbranch : ∀ t, (∀ c st, P st → P (buildStmts stop (bodyList t) c st).1) → ∀ d b a (st : CfgSt), P st → P (branchSt stop d t b a st) := by
    intro t ht d b a st hp
    unfold branchSt
    split
    · exact h.pushStatement _ _ _ hp
    · exact hclose _ _ _ (ht _ _ hp)
  have live : ∀ s, (∀ c (st : CfgSt), P st → st.hasIncoming c = true → P (buildStmt stop s false c st).1) →
      ∀ c st, P st → P (buildStmt stop s false c st).1 := by
    intro s hs c st hp
    cases hin : st.hasIncoming c with
    | true => exact hs c st hp hin
    | false => rw [buildStmt_dead stop hin]; exact h.addStatement _ _ _ hp
  apply Stmt.both
  · intro c st hp; exact hp
  · intro s ss hs hss c st hp
    simp only [buildStmts]
    split
    · exact hdead _ _ _ (hs _ _ hp)
    · exact hss _ _ (hs _ _ hp)
  · intro r; apply live; intro c st hp hin
    simp only [buildStmt, hin, Bool.true_eq_false, if_false]; exact hbrk _ _ hp
  · intro r; apply live; intro c st hp hin
    simp only [buildStmt, hin, Bool.true_eq_false, if_false]; exact hnxt _ _ hp
  · intro r; apply live; intro c st hp hin
    simp only [buildStmt, hin, Bool.true_eq_false, if_false]; exact h.setTerm _ _ _ hp
  · intro r f; apply live; intro c st hp hin
    simp only [buildStmt, hin, Bool.true_eq_false, if_false, CfgSt.buildCall]
    split
    · exact h.setTerm _ _ _ hp
    · split
      · exact hbrk _ _ hp
      · split
        · exact hnxt _ _ hp
        · split
          · exact h.setTerm _ _ _ hp
          · exact h.addStatement _ _ _ hp
  · intro r c st hp
    simp only [buildStmt]; exact h.addStatement _ _ _ hp
  · intro r ss _ c st hp
    simp only [buildStmt]; exact h.addStatement _ _ _ hp
  · intro r k t ht; apply live; intro c st hp hin
    rw [buildStmt_ifThen stop hin]
    exact hend _ _ _ (h.addEdge _ _ _ (h.setTerm _ _ _ (hbranch t ht _ _ _ _ (hopen _ _ _ hp))))
  · intro r k t e ht he; apply live; intro c st hp hin
    rw [buildStmt_ifElse stop hin]
    exact hend _ _ _ (hbranch e he _ _ _ _ (hbranch t ht _ _ _ _ (hopen _ _ _ hp)))
  · intro r b hb; apply live; intro c st hp hin
    rw [buildStmt_fors stop hin]
    exact hlclose _ _ _ (hb _ _ (hlopen _ _ hp))
  · intro r k b hb; apply live; intro c st hp hin
    rw [buildStmt_whiles stop hin]
    exact hlclose _ _ _ (hb _ _ (hlopen _ _ hp))
  · intro r b hb; apply live; intro c st hp hin
    rw [buildStmt_repeats stop hin]
    exact hlclose _ _ _ (hb _ _ (hropen _ _ hp))

/-- A block without statements has no range. -/
def NoRange (st : CfgSt) : Prop := ∀ i, st.stm i = [] → (st.blk i).range = none

theorem NoRange.upd {st : CfgSt} (h : NoRange st) (i : Nat) (f : Block → Block)
    (hf : ∀ k, (k.stmts = [] → k.range = none) → (f k).stmts = [] → (f k).range = none) : NoRange (st.upd i f) := by
  intro j hj
  simp only [CfgSt.stm, blk_upd] at hj ⊢
  split at hj
  · rw [if_pos ‹_›]; exact hf _ (h j) hj
  · rw [if_neg ‹_›]; exact h j hj

theorem noRange_preserved : Preserved NoRange := by
  constructor
  · intro st h i hi
    rw [show st.newBlock.stm i = st.stm i by simp [CfgSt.stm]] at hi
    simp; exact h i hi
  · intro st c t h
    exact h.upd _ _ (fun k hk => hk)
  · intro st a b h
    unfold CfgSt.addEdge
    apply NoRange.upd
    · apply NoRange.upd h; exact fun k hk => hk
    · exact fun k hk => hk
  · intro st a b h
    exact h.upd _ _ (fun k hk => hk)
  · intro st a r h
    exact h.upd _ _ (fun k hk hs => by simp at hs)
  · intro st a r h
    exact h.upd _ _ (fun k hk hs => by simp at hs)
  · intro st l h; exact h

/-! ## Ranges and groups -/

def Range.Wf (r : Range) : Prop := r.start ≤ r.stop

/-- The offset is not in the range. -/
def Off (x : Nat) (r : Range) : Prop := x < r.start ∨ r.stop ≤ x

theorem blockRange_off {k : Block} (hr : k.stmts = [] → k.range = none) {r : Range} (h : blockRange k = some r) {x : Nat}
    (ho : OutOf x k.stmts) : Off x r := by
  unfold blockRange at h
  split at h
  · rename_i s ss hs
    rw [hs] at ho
    simp only [Option.some.injEq] at h
    subst h
    have hlast : ((s :: ss).getLast?.getD s) ∈ s :: ss := by
      rw [List.getLast?_eq_some_getLast (List.cons_ne_nil _ _)]
      exact List.getLast_mem _
    simp only [Off, Range.cover]
    rcases ho with ho | ho
    · have h1 := ho s (List.mem_cons_self ..)
      have h2 := ho _ hlast
      left; omega
    · have h1 := ho s (List.mem_cons_self ..)
      have h2 := ho _ hlast
      right; omega
  · rename_i hs; rw [hr hs] at h; cases h

theorem blockRange_wf {k : Block} (hr : k.stmts = [] → k.range = none) {r : Range} (h : blockRange k = some r)
    (hw : ∀ s ∈ k.stmts, s.Wf) : r.Wf := by
  unfold blockRange at h
  split at h
  · rename_i s ss hs
    simp only [Option.some.injEq] at h
    subst h
    have := hw s (by rw [hs]; exact List.mem_cons_self ..)
    simp only [Range.Wf, Range.cover] at *
    omega
  · rename_i hs; rw [hr hs] at h; cases h

theorem groupLoop_off {x : Nat} : ∀ (l : List (Range × Reason)) (cur : Option (Range × Reason)),
    (∀ c ∈ cur, c.1.Wf ∧ Off x c.1) → (∀ c ∈ l, c.1.Wf ∧ Off x c.1) → ∀ c ∈ groupLoop cur l, Off x c.1 := by
  intro l
  induction l with
  | nil =>
    intro cur hc _ c h
    cases cur with
    | none => simp [groupLoop] at h
    | some k => simp only [groupLoop, List.mem_singleton] at h; subst h; exact (hc c rfl).2
  | cons y l ih =>
    intro cur hc hl c h
    have hy := hl y (List.mem_cons_self ..)
    have hl' : ∀ c ∈ l, c.1.Wf ∧ Off x c.1 := fun c h => hl c (List.mem_cons_of_mem _ h)
    cases cur with
    | none => exact ih (some y) (by intro c hc'; cases hc'; exact hy) hl' c h
    | some k =>
      have hk := hc k rfl
      simp only [groupLoop] at h
      split at h
      · rename_i hcond
        refine ih _ ?_ hl' c h
        intro c hc'; cases hc'
        simp only [Range.Wf, Off, Range.cover] at *
        omega
      · rcases List.mem_cons.1 h with rfl | h
        · exact hk.2
        · exact ih (some y) (by intro c hc'; cases hc'; exact hy) hl' c h

theorem mem_insertByStart {x y : Range × Reason} {l : List (Range × Reason)} : y ∈ insertByStart x l ↔ y = x ∨ y ∈ l := by
  induction l with
  | nil => simp [insertByStart]
  | cons a l ih =>
    simp only [insertByStart]
    split
    · simp
    · simp only [List.mem_cons, ih]
      constructor
      · rintro (h | h | h) <;> simp [h]
      · rintro (h | h | h) <;> simp [h]

theorem mem_sortByStart {y : Range × Reason} {l : List (Range × Reason)} : y ∈ sortByStart l ↔ y ∈ l := by
  unfold sortByStart
  induction l with
  | nil => simp
  | cons a l ih => simp [mem_insertByStart, ih]

theorem mem_unreachableBlocks {F : CfgSt} {y : Range × Reason} :
    y ∈ unreachableBlocks F.blocks ↔ ∃ b, b < F.len ∧ b ≠ 0 ∧ b ≠ 1 ∧ ¬ Rch F b ∧ blockRange (F.blk b) = some y.1 ∧ y.2 = reasonOf F.blocks b := by
  unfold unreachableBlocks
  simp only [List.mem_filterMap, List.mem_range]
  have hseen : ∀ b, (reachable F.blocks).contains b = true ↔ Rch F b := by
    intro b; rw [← mem_reachable]; simp
  constructor
  · rintro ⟨b, hb, h⟩
    split at h
    · cases h
    · rename_i hn
      simp only [Bool.or_eq_true, not_or, beq_iff_eq] at hn
      have hn' : ¬ Rch F b := fun h => hn.2 ((hseen b).2 h)
      cases hr : blockRange (blockAt F.blocks b) with
      | none => rw [hr] at h; cases h
      | some r =>
        rw [hr] at h; cases h
        exact ⟨b, hb, hn.1.1, hn.1.2, hn', hr, rfl⟩
  · rintro ⟨b, hb, h0, h1, hn, hr, he⟩
    refine ⟨b, hb, ?_⟩
    rw [if_neg]
    · have hr : blockRange (blockAt F.blocks b) = some y.1 := hr
      rw [hr]; simp [← he]
    · simp only [Bool.or_eq_true, not_or, beq_iff_eq]
      exact ⟨⟨h0, h1⟩, fun h => hn ((hseen b).1 h)⟩

/-- No offset where a statement is about to be executed is in a reported range. -/
theorem findUnreachable_off (stop : List Str) (ss : List Stmt) {lo hi : Nat} (hl : LaidSeq lo hi ss) (hb : ¬ BareReturn ss)
    {q : Stmt} (hq : Executable stop ss q) {y : Range × Reason} (hy : y ∈ findUnreachable (buildStmts stop ss 0 .init).1.blocks) :
    Off q.range.start y.1 := by
  obtain ⟨σ, I, s, rest, hre⟩ := hq
  have hB := (good stop).2 ss lo hi 0 .init hl inv_init (by decide)
  generalize hF : (buildStmts stop ss 0 .init).1 = F at *
  have hnr : NoRange F := by
    rw [← hF]
    exact (noRange_preserved.build stop).2 ss 0 .init (by
      intro i _
      match i with
      | 0 => rfl
      | 1 => rfl
      | i + 2 => rfl)
  have hinit : ∀ i, CfgSt.init.stm i = [] := by
    intro i
    match i with
    | 0 => rfl
    | 1 => rfl
    | i + 2 => rfl
  obtain ⟨-, h2⟩ := (sound stop).2 ss F lo hi 0 .init hl hb inv_init (by decide) ⟨.zero, by decide⟩ (by decide)
    (by rw [hF]; intro i; exact fun _ h => h) (by rw [hF]; intros; rfl)
  obtain ⟨q', rest', he, -, -, hout⟩ := h2 σ I s _ hre
  cases he
  rw [hF] at hout
  have hstm : ∀ b, ∀ r ∈ F.stm b, InReg lo hi r := by
    intro b r hr
    obtain ⟨e, he, hreg⟩ := hB.step.stm b
    rw [hF] at he
    rw [he, hinit, List.nil_append] at hr
    have := hreg r hr
    simpa using this
  refine groupLoop_off _ none (by simp) ?_ y hy
  intro c hc
  rw [mem_sortByStart, mem_unreachableBlocks] at hc
  obtain ⟨b, hbl, h0, h1, hn, hr, -⟩ := hc
  have hlen : CfgSt.init.len = 2 := rfl
  refine ⟨blockRange_wf (hnr b) hr ?_, blockRange_off (hnr b) hr (hout b (by omega) hbl hn)⟩
  intro r hr'
  have := (hstm b r hr').2.1
  exact Nat.le_of_lt this

end Jarl

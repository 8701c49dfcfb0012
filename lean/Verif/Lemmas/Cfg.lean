import Verif.Cfg
import Verif.Spec.Exec

/-!
# Lemmas about the control-flow graph builder
-/

namespace Jarl

open Jarl.Spec

abbrev CfgSt.len (st : CfgSt) : Nat := st.blocks.length
abbrev CfgSt.suc (st : CfgSt) (i : Nat) : List Nat := (st.blk i).succs
abbrev CfgSt.prd (st : CfgSt) (i : Nat) : List Nat := (st.blk i).preds
abbrev CfgSt.stm (st : CfgSt) (i : Nat) : List Range := (st.blk i).stmts
abbrev CfgSt.trm (st : CfgSt) (i : Nat) : Term := (st.blk i).term

/-! ## Primitive operations -/

theorem blk_ge {st : CfgSt} {i : Nat} (h : st.len ≤ i) : st.blk i = {} := by
  simp [CfgSt.blk, List.getD, List.getElem?_eq_none h]

@[simp] theorem len_upd (st : CfgSt) (i f) : (st.upd i f).len = st.len := by
  simp [CfgSt.len, CfgSt.upd]

@[simp] theorem len_newBlock (st : CfgSt) : st.newBlock.len = st.len + 1 := by
  simp [CfgSt.len, CfgSt.newBlock]

@[simp] theorem loops_upd (st : CfgSt) (i f) : (st.upd i f).loops = st.loops := rfl
@[simp] theorem loops_newBlock (st : CfgSt) : st.newBlock.loops = st.loops := rfl

theorem blk_upd (st : CfgSt) (i j : Nat) (f : Block → Block) :
    (st.upd i f).blk j = if i = j ∧ j < st.len then f (st.blk j) else st.blk j := by
  simp only [CfgSt.upd, CfgSt.blk, List.getD, List.getElem?_modify]
  by_cases hij : i = j
  · subst hij
    by_cases hl : i < st.len
    · simp [hl]
    · simp [hl]
  · simp [hij]

@[simp] theorem blk_newBlock (st : CfgSt) (j : Nat) : st.newBlock.blk j = st.blk j := by
  simp only [CfgSt.newBlock, CfgSt.blk, List.getD]
  rw [List.getElem?_append]
  split
  · rfl
  · rename_i h
    rw [List.getElem?_eq_none (Nat.le_of_not_lt h)]
    cases hh : j - st.blocks.length with
    | zero => simp
    | succ n => simp

@[simp] theorem len_setTerm (st : CfgSt) (i t) : (st.setTerm i t).len = st.len := len_upd ..
@[simp] theorem len_addEdge (st : CfgSt) (i t) : (st.addEdge i t).len = st.len := by
  simp [CfgSt.len, CfgSt.addEdge, CfgSt.upd]
@[simp] theorem len_addPred (st : CfgSt) (i t) : (st.addPred i t).len = st.len := len_upd ..
@[simp] theorem len_addStatement (st : CfgSt) (i t) : (st.addStatement i t).len = st.len := len_upd ..
@[simp] theorem len_pushStatement (st : CfgSt) (i t) : (st.pushStatement i t).len = st.len := len_upd ..
@[simp] theorem loops_setTerm (st : CfgSt) (i t) : (st.setTerm i t).loops = st.loops := rfl
@[simp] theorem loops_addEdge (st : CfgSt) (i t) : (st.addEdge i t).loops = st.loops := rfl
@[simp] theorem loops_addPred (st : CfgSt) (i t) : (st.addPred i t).loops = st.loops := rfl
@[simp] theorem loops_addStatement (st : CfgSt) (i t) : (st.addStatement i t).loops = st.loops := rfl
@[simp] theorem loops_pushStatement (st : CfgSt) (i t) : (st.pushStatement i t).loops = st.loops := rfl

theorem blk_loops (bs : List Block) (l l' : List LoopCtx) (i : Nat) :
    CfgSt.blk ⟨bs, l⟩ i = CfgSt.blk ⟨bs, l'⟩ i := rfl

theorem mem_pushNew {x y : Nat} {l : List Nat} : y ∈ pushNew x l ↔ y ∈ l ∨ y = x := by
  unfold pushNew
  split
  · rename_i h
    constructor
    · exact Or.inl
    · rintro (h' | rfl)
      · exact h'
      · simpa using h
  · simp

/-- What every builder operation preserves: blocks are only added, edges only added, and statements
and terminators change only inside `T`. -/
structure Fr (T : Nat → Prop) (st st' : CfgSt) : Prop where
  len : st.len ≤ st'.len
  suc : ∀ i, st.suc i ⊆ st'.suc i
  prd : ∀ i, st.prd i <+: st'.prd i
  stm : ∀ i, ¬ T i → st'.stm i = st.stm i
  trm : ∀ i, ¬ T i → st'.trm i = st.trm i

theorem Fr.refl {T} (st : CfgSt) : Fr T st st :=
  ⟨Nat.le_refl _, fun _ _ h => h, fun _ => List.prefix_refl _, fun _ _ => rfl, fun _ _ => rfl⟩

theorem Fr.mono {T T' : Nat → Prop} {st st' : CfgSt} (h : Fr T st st') (hT : ∀ i, T i → T' i) : Fr T' st st' :=
  ⟨h.len, h.suc, h.prd, fun i hi => h.stm i (fun hh => hi (hT i hh)), fun i hi => h.trm i (fun hh => hi (hT i hh))⟩

theorem Fr.trans {T : Nat → Prop} {a b c : CfgSt} (h : Fr T a b) (h' : Fr T b c) : Fr T a c :=
  ⟨Nat.le_trans h.len h'.len, fun i => (h.suc i).trans (h'.suc i), fun i => (h.prd i).trans (h'.prd i),
   fun i hi => (h'.stm i hi).trans (h.stm i hi), fun i hi => (h'.trm i hi).trans (h.trm i hi)⟩

theorem Fr.newBlock (T) (st : CfgSt) : Fr T st st.newBlock :=
  ⟨by simp, by simp [CfgSt.suc], by simp [CfgSt.prd], by simp [CfgSt.stm], by simp [CfgSt.trm]⟩

theorem Fr.setTerm {T : Nat → Prop} (st : CfgSt) {c : Nat} (t) (hc : T c) : Fr T st (st.setTerm c t) := by
  refine ⟨by simp, ?_, ?_, ?_, ?_⟩
  · intro i; simp only [CfgSt.setTerm, CfgSt.suc, blk_upd]; split <;> simp
  · intro i; simp only [CfgSt.setTerm, CfgSt.prd, blk_upd]; split <;> simp
  · intro i _; simp only [CfgSt.setTerm, CfgSt.stm, blk_upd]; split <;> simp
  · intro i hi; simp only [CfgSt.setTerm, CfgSt.trm, blk_upd]; split
    · rename_i h; exact absurd (h.1 ▸ hc) hi
    · rfl

theorem Fr.addEdge (T) (st : CfgSt) (a b : Nat) : Fr T st (st.addEdge a b) := by
  refine ⟨by simp, ?_, ?_, ?_, ?_⟩
  · intro i x hx; simp only [CfgSt.addEdge, CfgSt.suc, blk_upd]
    split <;> split <;> simp_all [mem_pushNew]
  · intro i; simp only [CfgSt.addEdge, CfgSt.prd, blk_upd]
    have pn : ∀ x (l : List Nat), l <+: pushNew x l := by
      intro x l; unfold pushNew; split
      · exact List.prefix_refl _
      · exact List.prefix_append ..
    split <;> split <;> first | exact pn _ _ | exact List.prefix_refl _
  · intro i _; simp only [CfgSt.addEdge, CfgSt.stm, blk_upd]; split <;> split <;> rfl
  · intro i _; simp only [CfgSt.addEdge, CfgSt.trm, blk_upd]; split <;> split <;> rfl

theorem Fr.addPred (T) (st : CfgSt) (a b : Nat) : Fr T st (st.addPred a b) := by
  refine ⟨by simp, ?_, ?_, ?_, ?_⟩
  · intro i x hx; simp only [CfgSt.addPred, CfgSt.suc, blk_upd]; split <;> simp_all
  · intro i; simp only [CfgSt.addPred, CfgSt.prd, blk_upd]; split <;> simp
  · intro i _; simp only [CfgSt.addPred, CfgSt.stm, blk_upd]; split <;> rfl
  · intro i _; simp only [CfgSt.addPred, CfgSt.trm, blk_upd]; split <;> rfl

theorem Fr.addStatement {T : Nat → Prop} (st : CfgSt) {c : Nat} (r) (hc : T c) : Fr T st (st.addStatement c r) := by
  refine ⟨by simp, ?_, ?_, ?_, ?_⟩
  · intro i x hx; simp only [CfgSt.addStatement, CfgSt.suc, blk_upd]; split <;> simp_all
  · intro i; simp only [CfgSt.addStatement, CfgSt.prd, blk_upd]; split <;> simp
  · intro i hi; simp only [CfgSt.addStatement, CfgSt.stm, blk_upd]; split
    · rename_i h; exact absurd (h.1 ▸ hc) hi
    · rfl
  · intro i _; simp only [CfgSt.addStatement, CfgSt.trm, blk_upd]; split <;> rfl

theorem Fr.pushStatement {T : Nat → Prop} (st : CfgSt) {c : Nat} (r) (hc : T c) : Fr T st (st.pushStatement c r) := by
  refine ⟨by simp, ?_, ?_, ?_, ?_⟩
  · intro i x hx; simp only [CfgSt.pushStatement, CfgSt.suc, blk_upd]; split <;> simp_all
  · intro i; simp only [CfgSt.pushStatement, CfgSt.prd, blk_upd]; split <;> simp
  · intro i hi; simp only [CfgSt.pushStatement, CfgSt.stm, blk_upd]; split
    · rename_i h; exact absurd (h.1 ▸ hc) hi
    · rfl
  · intro i _; simp only [CfgSt.pushStatement, CfgSt.trm, blk_upd]; split <;> rfl

theorem Fr.loops {T st st'} (h : Fr T st st') (l : List LoopCtx) : Fr T st { st' with loops := l } :=
  ⟨h.len, h.suc, h.prd, h.stm, h.trm⟩

/-! ## Edges -/

/-- The edges of `st'` are those of `st` and those of `E`. -/
def Edges (E : Nat → Nat → Prop) (st st' : CfgSt) : Prop :=
  ∀ i j, j ∈ st'.suc i → j ∈ st.suc i ∨ E i j

theorem Edges.refl {E} (st : CfgSt) : Edges E st st := fun _ _ h => Or.inl h

theorem Edges.trans {E a b c} (h : Edges E a b) (h' : Edges E b c) : Edges E a c := by
  intro i j hj
  rcases h' i j hj with h1 | h1
  · exact h i j h1
  · exact Or.inr h1

theorem Edges.mono {E E' : Nat → Nat → Prop} {a b} (h : Edges E a b) (hE : ∀ i j, E i j → E' i j) : Edges E' a b := by
  intro i j hj
  exact (h i j hj).imp id (hE i j)

theorem suc_setTerm (st : CfgSt) (c t i) : (st.setTerm c t).suc i = st.suc i := by
  simp only [CfgSt.setTerm, CfgSt.suc, blk_upd]; split <;> rfl
theorem suc_addPred (st : CfgSt) (c t i) : (st.addPred c t).suc i = st.suc i := by
  simp only [CfgSt.addPred, CfgSt.suc, blk_upd]; split <;> rfl
theorem suc_addStatement (st : CfgSt) (c t i) : (st.addStatement c t).suc i = st.suc i := by
  simp only [CfgSt.addStatement, CfgSt.suc, blk_upd]; split <;> rfl
theorem suc_pushStatement (st : CfgSt) (c t i) : (st.pushStatement c t).suc i = st.suc i := by
  simp only [CfgSt.pushStatement, CfgSt.suc, blk_upd]; split <;> rfl
theorem suc_newBlock (st : CfgSt) (i) : (st.newBlock).suc i = st.suc i := by simp [CfgSt.suc]
theorem mem_suc_addEdge {st : CfgSt} {a b i j : Nat} :
    j ∈ (st.addEdge a b).suc i ↔ j ∈ st.suc i ∨ (i = a ∧ j = b ∧ a < st.len) := by
  simp only [CfgSt.addEdge, CfgSt.suc, blk_upd, len_upd]
  by_cases h1 : a = i ∧ i < st.len
  · rw [if_pos h1]
    split
    · simp only [mem_pushNew]; constructor
      · rintro (h | rfl)
        · exact Or.inl h
        · exact Or.inr ⟨h1.1.symm, rfl, h1.1 ▸ h1.2⟩
      · rintro (h | ⟨_, rfl, _⟩)
        · exact Or.inl h
        · exact Or.inr rfl
    · simp only [mem_pushNew]; constructor
      · rintro (h | rfl)
        · exact Or.inl h
        · exact Or.inr ⟨h1.1.symm, rfl, h1.1 ▸ h1.2⟩
      · rintro (h | ⟨_, rfl, _⟩)
        · exact Or.inl h
        · exact Or.inr rfl
  · rw [if_neg h1]
    have key : (i = a ∧ j = b ∧ a < st.len) ↔ False := by
      constructor
      · rintro ⟨rfl, -, h⟩; exact h1 ⟨rfl, h⟩
      · exact False.elim
    rw [key, or_false]
    split <;> rfl
theorem prd_setTerm (st : CfgSt) (c t i) : (st.setTerm c t).prd i = st.prd i := by
  simp only [CfgSt.setTerm, CfgSt.prd, blk_upd]; split <;> rfl
theorem prd_addStatement (st : CfgSt) (c t i) : (st.addStatement c t).prd i = st.prd i := by
  simp only [CfgSt.addStatement, CfgSt.prd, blk_upd]; split <;> rfl
theorem prd_pushStatement (st : CfgSt) (c t i) : (st.pushStatement c t).prd i = st.prd i := by
  simp only [CfgSt.pushStatement, CfgSt.prd, blk_upd]; split <;> rfl
theorem mem_prd_addEdge {st : CfgSt} {a b i j : Nat} :
    j ∈ (st.addEdge a b).prd i ↔ j ∈ st.prd i ∨ (i = b ∧ j = a ∧ b < st.len) := by
  simp only [CfgSt.addEdge, CfgSt.prd, blk_upd, len_upd]
  have hsame : ∀ x : Block, x = (if a = i ∧ i < st.len then { st.blk i with succs := pushNew b (st.blk i).succs } else st.blk i) →
      x.preds = (st.blk i).preds := by intro x hx; subst hx; split <;> rfl
  by_cases h1 : b = i ∧ i < st.len
  · rw [if_pos h1]
    simp only [mem_pushNew]
    rw [hsame _ rfl]
    constructor
    · rintro (h | rfl)
      · exact Or.inl h
      · exact Or.inr ⟨h1.1.symm, rfl, h1.1 ▸ h1.2⟩
    · rintro (h | ⟨_, rfl, _⟩)
      · exact Or.inl h
      · exact Or.inr rfl
  · rw [if_neg h1, hsame _ rfl]
    constructor
    · exact Or.inl
    · rintro (h | ⟨rfl, -, h⟩)
      · exact h
      · exact absurd ⟨rfl, h⟩ h1

/-- Well-formed builder states. -/
structure Inv (st : CfgSt) : Prop where
  two : 2 ≤ st.len
  edge : ∀ i j, j ∈ st.suc i → j < st.len ∧ i ∈ st.prd j ∧ j ≠ 1
  loops : ∀ l ∈ st.loops, l.next < st.len ∧ l.brk < st.len ∧ 2 ≤ l.next ∧ 2 ≤ l.brk

theorem inv_init : Inv .init := by
  refine ⟨by decide, ?_, by simp [CfgSt.init]⟩
  intro i j h
  have : CfgSt.init.suc i = [] := by
    match i with
    | 0 => rfl
    | 1 => rfl
    | n + 2 => rfl
  rw [this] at h; cases h

theorem Inv.newBlock {st : CfgSt} (h : Inv st) : Inv st.newBlock := by
  refine ⟨by have := h.two; simp; omega, ?_, ?_⟩
  · intro i j hj
    have := h.edge i j (by simpa [suc_newBlock] using hj)
    simp only [len_newBlock, CfgSt.prd, blk_newBlock]
    exact ⟨by omega, this.2⟩
  · intro l hl
    have := h.loops l hl
    simp only [len_newBlock]; omega

theorem Inv.setTerm {st : CfgSt} (h : Inv st) (c t) : Inv (st.setTerm c t) := by
  refine ⟨by simpa using h.two, ?_, by simpa using h.loops⟩
  intro i j hj
  rw [suc_setTerm] at hj
  simpa [prd_setTerm] using h.edge i j hj

theorem Inv.addStatement {st : CfgSt} (h : Inv st) (c t) : Inv (st.addStatement c t) := by
  refine ⟨by simpa using h.two, ?_, by simpa using h.loops⟩
  intro i j hj
  rw [suc_addStatement] at hj
  simpa [prd_addStatement] using h.edge i j hj

theorem Inv.pushStatement {st : CfgSt} (h : Inv st) (c t) : Inv (st.pushStatement c t) := by
  refine ⟨by simpa using h.two, ?_, by simpa using h.loops⟩
  intro i j hj
  rw [suc_pushStatement] at hj
  simpa [prd_pushStatement] using h.edge i j hj

theorem Inv.addPred {st : CfgSt} (h : Inv st) (c t) : Inv (st.addPred c t) := by
  refine ⟨by simpa using h.two, ?_, by simpa using h.loops⟩
  intro i j hj
  rw [suc_addPred] at hj
  have := h.edge i j hj
  exact ⟨by simpa using this.1, (Fr.addPred (fun _ => True) st c t).prd j |>.subset this.2.1, this.2.2⟩

theorem Inv.addEdge {st : CfgSt} (h : Inv st) {a b : Nat} (hb : b < st.len) (hb2 : 2 ≤ b) : Inv (st.addEdge a b) := by
  refine ⟨by simpa using h.two, ?_, by simpa using h.loops⟩
  intro i j hj
  rw [mem_suc_addEdge] at hj
  rw [mem_prd_addEdge, len_addEdge]
  rcases hj with hj | ⟨rfl, rfl, hl⟩
  · have := h.edge i j hj
    exact ⟨this.1, Or.inl this.2.1, this.2.2⟩
  · exact ⟨hb, Or.inr ⟨rfl, rfl, hb⟩, by omega⟩

theorem Inv.setLoops {st : CfgSt} (h : Inv st) {l : List LoopCtx}
    (hl : ∀ x ∈ l, x.next < st.len ∧ x.brk < st.len ∧ 2 ≤ x.next ∧ 2 ≤ x.brk) : Inv { st with loops := l } :=
  ⟨h.two, h.edge, hl⟩

theorem hasIncoming_iff {st : CfgSt} (h : Inv st) {b : Nat} : st.hasIncoming b = true ↔ b = 0 ∨ ∃ i, b ∈ st.suc i := by
  unfold CfgSt.hasIncoming
  simp only [Bool.or_eq_true, beq_iff_eq, List.any_eq_true, List.contains_iff_mem]
  constructor
  · rintro (h | ⟨p, _, hp⟩)
    · exact Or.inl h
    · exact Or.inr ⟨p, hp⟩
  · rintro (h' | ⟨i, hi⟩)
    · exact Or.inl h'
    · exact Or.inr ⟨i, (h.edge i b hi).2.1, hi⟩

theorem hasIncoming_mono {T st st'} (h : Fr T st st') {b : Nat} (hb : st.hasIncoming b = true) : st'.hasIncoming b = true := by
  unfold CfgSt.hasIncoming at *
  simp only [Bool.or_eq_true, beq_iff_eq, List.any_eq_true, List.contains_iff_mem] at *
  rcases hb with hb | ⟨p, hp, hs⟩
  · exact Or.inl hb
  · exact Or.inr ⟨p, (h.prd b).subset hp, h.suc p hs⟩

/-! ## Induction on statements -/

/-- Induction on statements and on lists of statements, where branches and loop bodies are seen as
lists. -/
theorem Stmt.both {P : Stmt → Prop} {PL : List Stmt → Prop}
    (nil : PL []) (cons : ∀ s ss, P s → PL ss → PL (s :: ss))
    (brk : ∀ r, P (.brk r)) (nxt : ∀ r, P (.nxt r)) (ret : ∀ r, P (.ret r)) (call : ∀ r f, P (.call r f))
    (other : ∀ r, P (.other r)) (braced : ∀ r ss, PL ss → P (.braced r ss))
    (ifThen : ∀ r k t, PL (bodyList t) → P (.ifThen r k t))
    (ifElse : ∀ r k t e, PL (bodyList t) → PL (bodyList e) → P (.ifElse r k t e))
    (fors : ∀ r b, PL (bodyList b) → P (.fors r b))
    (whiles : ∀ r k b, PL (bodyList b) → P (.whiles r k b))
    (repeats : ∀ r b, PL (bodyList b) → P (.repeats r b)) :
    (∀ s, P s) ∧ (∀ ss, PL ss) := by
  have single : ∀ s, P s → (∀ r ss, s ≠ .braced r ss) → P s ∧ PL (bodyList s) := by
    intro s hs hn
    refine ⟨hs, ?_⟩
    have : bodyList s = [s] := by cases s <;> first | rfl | exact absurd rfl (hn _ _)
    rw [this]; exact cons _ _ hs nil
  have key : ∀ s, P s ∧ PL (bodyList s) := by
    intro s
    refine Stmt.rec (motive_1 := fun s => P s ∧ PL (bodyList s)) (motive_2 := PL) ?_ ?_ ?_ ?_ ?_ ?_ ?_ ?_ ?_ ?_ ?_ ?_ ?_ s
    · intro r; exact single _ (brk r) (by simp)
    · intro r; exact single _ (nxt r) (by simp)
    · intro r; exact single _ (ret r) (by simp)
    · intro r f; exact single _ (call r f) (by simp)
    · intro r k t h; exact single _ (ifThen r k t h.2) (by simp)
    · intro r k t e h h'; exact single _ (ifElse r k t e h.2 h'.2) (by simp)
    · intro r b h; exact single _ (fors r b h.2) (by simp)
    · intro r k b h; exact single _ (whiles r k b h.2) (by simp)
    · intro r b h; exact single _ (repeats r b h.2) (by simp)
    · intro r ss h; exact ⟨braced r ss h, h⟩
    · intro r; exact single _ (other r) (by simp)
    · exact nil
    · intro s ss h h'; exact cons s ss h.1 h'
  refine ⟨fun s => (key s).1, ?_⟩
  intro ss
  induction ss with
  | nil => exact nil
  | cons s ss ih => exact cons s ss (key s).1 ih

/-- Building a branch or a loop body is building the list of its statements. -/
theorem buildStmt_body (stop : List Str) (s : Stmt) (c : Nat) (st : CfgSt) :
    buildStmt stop s true c st = buildStmts stop (bodyList s) c st := by
  cases s <;> simp [bodyList, buildStmts, buildStmt]

/-! ## What building does to the state -/

/-- A range within `[lo, hi)`. -/
def InReg (lo hi : Nat) (r : Range) : Prop := lo ≤ r.start ∧ r.start < r.stop ∧ r.stop ≤ hi

theorem InReg.mono {lo hi lo' hi' : Nat} {r : Range} (h : InReg lo hi r) (h1 : lo' ≤ lo) (h2 : hi ≤ hi') : InReg lo' hi' r :=
  ⟨Nat.le_trans h1 h.1, h.2.1, Nat.le_trans h.2.2 h2⟩

/-- A part of the construction: `T` are the blocks whose statements and terminator may change, `J`
the targets of new edges, `lo b` and `hi` bound the statements added to block `b`. -/
structure Step (T J : Nat → Prop) (lo : Nat → Nat) (hi : Nat) (st st' : CfgSt) : Prop where
  fr : Fr T st st'
  inv : Inv st'
  edges : Edges (fun _ j => J j) st st'
  stm : ∀ b, ∃ e, st'.stm b = st.stm b ++ e ∧ ∀ r ∈ e, InReg (lo b) hi r

theorem Step.mono {T J T' J' : Nat → Prop} {lo lo' : Nat → Nat} {hi hi' : Nat} {a b : CfgSt}
    (h : Step T J lo hi a b) (hT : ∀ i, T i → T' i) (hJ : ∀ i, J i → J' i)
    (hlo : ∀ i, T i → lo' i ≤ lo i) (hhi : hi ≤ hi') : Step T' J' lo' hi' a b := by
  classical
  refine ⟨h.fr.mono hT, h.inv, h.edges.mono (fun _ j hj => hJ j hj), ?_⟩
  intro i
  obtain ⟨e, he, hr⟩ := h.stm i
  by_cases ht : T i
  · exact ⟨e, he, fun r hr' => (hr r hr').mono (hlo i ht) hhi⟩
  · have := h.fr.stm i ht
    rw [he] at this
    have h0 : e = [] := by
      have := congrArg List.length this
      simp at this; exact this
    subst h0
    exact ⟨[], he, by simp⟩

theorem Step.trans {T J : Nat → Prop} {lo : Nat → Nat} {hi : Nat} {a b c : CfgSt}
    (h : Step T J lo hi a b) (h' : Step T J lo hi b c) : Step T J lo hi a c := by
  refine ⟨h.fr.trans h'.fr, h'.inv, h.edges.trans h'.edges, ?_⟩
  intro i
  obtain ⟨e, he, hr⟩ := h.stm i
  obtain ⟨e', he', hr'⟩ := h'.stm i
  refine ⟨e ++ e', by rw [he', he, List.append_assoc], ?_⟩
  intro r h
  rcases List.mem_append.1 h with h | h
  · exact hr r h
  · exact hr' r h

theorem Step.refl {T J : Nat → Prop} {lo : Nat → Nat} {hi : Nat} {a : CfgSt} (h : Inv a) : Step T J lo hi a a :=
  ⟨.refl a, h, .refl a, fun _ => ⟨[], by simp, by simp⟩⟩

variable {T J : Nat → Prop} {lo : Nat → Nat} {hi : Nat}

theorem Step.newBlock {st : CfgSt} (h : Inv st) : Step T J lo hi st st.newBlock :=
  ⟨.newBlock T st, h.newBlock, fun i j hj => Or.inl (by simpa [suc_newBlock] using hj),
   fun b => ⟨[], by simp [CfgSt.stm], by simp⟩⟩

theorem Step.setTerm {st : CfgSt} (h : Inv st) {c : Nat} (t : Term) (hc : T c) : Step T J lo hi st (st.setTerm c t) :=
  ⟨.setTerm st t hc, h.setTerm c t, fun i j hj => Or.inl (by simpa [suc_setTerm] using hj),
   fun b => ⟨[], by simp only [CfgSt.setTerm, CfgSt.stm, blk_upd]; split <;> simp, by simp⟩⟩

theorem Step.addEdge {st : CfgSt} (h : Inv st) {a b : Nat} (hb : b < st.len) (hb2 : 2 ≤ b) (hJ : J b) :
    Step T J lo hi st (st.addEdge a b) :=
  ⟨.addEdge T st a b, h.addEdge hb hb2,
   fun i j hj => by rw [mem_suc_addEdge] at hj; rcases hj with hj | ⟨_, rfl, _⟩; exact Or.inl hj; exact Or.inr hJ,
   fun b' => ⟨[], by
    have := (Fr.addEdge (fun _ => False) st a b).stm b' (fun h => h)
    rw [this]; simp, by simp⟩⟩

theorem Step.addPred {st : CfgSt} (h : Inv st) (a b : Nat) : Step T J lo hi st (st.addPred a b) :=
  ⟨.addPred T st a b, h.addPred a b, fun i j hj => Or.inl (by simpa [suc_addPred] using hj),
   fun b' => ⟨[], by
    have := (Fr.addPred (fun _ => False) st a b).stm b' (fun h => h)
    rw [this]; simp, by simp⟩⟩

theorem stm_addStatement {st : CfgSt} {c : Nat} {r : Range} (hc : c < st.len) : (st.addStatement c r).stm c = st.stm c ++ [r] := by
  simp only [CfgSt.addStatement, CfgSt.stm, blk_upd]
  rw [if_pos ⟨trivial, hc⟩]

theorem stm_pushStatement {st : CfgSt} {c : Nat} {r : Range} (hc : c < st.len) : (st.pushStatement c r).stm c = st.stm c ++ [r] := by
  simp only [CfgSt.pushStatement, CfgSt.stm, blk_upd]
  rw [if_pos ⟨trivial, hc⟩]

theorem Step.addStatement {st : CfgSt} (h : Inv st) {c : Nat} {r : Range} (hc : T c) (hl : c < st.len)
    (hr : InReg (lo c) hi r) : Step T J lo hi st (st.addStatement c r) := by
  refine ⟨.addStatement st r hc, h.addStatement c r, fun i j hj => Or.inl (by simpa [suc_addStatement] using hj), ?_⟩
  intro b
  by_cases hb : b = c
  · subst hb
    exact ⟨[r], stm_addStatement hl, by simpa using hr⟩
  · have := (Fr.addStatement (T := fun i => i = c) st r rfl).stm b hb
    exact ⟨[], by rw [this]; simp, by simp⟩

theorem Step.pushStatement {st : CfgSt} (h : Inv st) {c : Nat} {r : Range} (hc : T c) (hl : c < st.len)
    (hr : InReg (lo c) hi r) : Step T J lo hi st (st.pushStatement c r) := by
  refine ⟨.pushStatement st r hc, h.pushStatement c r, fun i j hj => Or.inl (by simpa [suc_pushStatement] using hj), ?_⟩
  intro b
  by_cases hb : b = c
  · subst hb
    exact ⟨[r], stm_pushStatement hl, by simpa using hr⟩
  · have := (Fr.pushStatement (T := fun i => i = c) st r rfl).stm b hb
    exact ⟨[], by rw [this]; simp, by simp⟩

theorem trm_setTerm {st : CfgSt} {c : Nat} {t : Term} (hc : c < st.len) : (st.setTerm c t).trm c = t := by
  simp only [CfgSt.setTerm, CfgSt.trm, blk_upd]
  rw [if_pos ⟨trivial, hc⟩]

theorem trm_addEdge (st : CfgSt) (a b i : Nat) : (st.addEdge a b).trm i = st.trm i :=
  (Fr.addEdge (fun _ => False) st a b).trm i (fun h => h)

theorem len_ifOpen (st : CfgSt) (c k) : (st.ifOpen c k).len = st.len + 3 := by
  unfold CfgSt.ifOpen
  split <;> simp

theorem loops_ifOpen (st : CfgSt) (c k) : (st.ifOpen c k).loops = st.loops := by
  unfold CfgSt.ifOpen
  split <;> simp

theorem Step.ifOpen {st : CfgSt} (h : Inv st) {c : Nat} (k : Cond) (hc : T c)
    (hJ : J st.len ∧ J (st.len + 1)) : Step T J lo hi st (st.ifOpen c k) := by
  unfold CfgSt.ifOpen
  have two := h.two
  have h1 : Step T J lo hi st (st.newBlock.newBlock.newBlock) :=
    ((Step.newBlock h).trans (.newBlock h.newBlock)).trans (.newBlock h.newBlock.newBlock)
  have h2 : Step T J lo hi st (st.newBlock.newBlock.newBlock.setTerm c .branch) := h1.trans (.setTerm h1.inv _ hc)
  have hlen : (st.newBlock.newBlock.newBlock.setTerm c .branch).len = st.len + 3 := by simp
  generalize st.newBlock.newBlock.newBlock.setTerm c .branch = st' at *
  simp only
  split
  · have h3 := h2.trans (.addEdge (a := c) h2.inv (b := st.len) (by omega) two hJ.1)
    exact h3.trans (.addPred h3.inv _ _)
  · have h3 := h2.trans (.addEdge (a := c) h2.inv (b := st.len + 1) (by omega) (by simp only [CfgSt.len] at *; omega) hJ.2)
    exact h3.trans (.addPred h3.inv _ _)
  · have h3 := h2.trans (.addEdge (a := c) h2.inv (b := st.len) (by omega) two hJ.1)
    exact h3.trans (.addEdge (b := st.len + 1) h3.inv (by simp only [len_addEdge]; omega) (by simp only [CfgSt.len] at *; omega) hJ.2)

theorem Step.closeBranch {st : CfgSt} (h : Inv st) {last after : Nat} (hl : T last) (ha : after < st.len) (ha2 : 2 ≤ after)
    (hJ : J after) : Step T J lo hi st (st.closeBranch last after) := by
  unfold CfgSt.closeBranch
  split
  · have h1 := Step.setTerm (J := J) (lo := lo) (hi := hi) h .goto hl
    exact h1.trans (.addEdge h1.inv (by simpa using ha) ha2 hJ)
  · exact .refl h

theorem len_closeBranch (st : CfgSt) (a b) : (st.closeBranch a b).len = st.len := by
  unfold CfgSt.closeBranch
  split <;> simp

theorem Step.ifEnd {st : CfgSt} (h : Inv st) (c after : Nat) : Step T J lo hi st (st.ifEnd c after) := by
  unfold CfgSt.ifEnd
  split
  · exact .addPred h _ _
  · exact .refl h

theorem len_ifEnd (st : CfgSt) (a b) : (st.ifEnd a b).len = st.len := by
  unfold CfgSt.ifEnd
  split <;> simp

theorem deadLoop_step {st : CfgSt} (h : Inv st) {u : Nat} (hu : u < st.len) (hT : T u) {rest : List Range}
    (hr : ∀ r ∈ rest, InReg (lo u) hi r) :
    Step T J lo hi st (rest.foldl (fun st r => st.addStatement u r) st) ∧
    (rest.foldl (fun st r => st.addStatement u r) st).len = st.len ∧
    (rest.foldl (fun st r => st.addStatement u r) st).stm u = st.stm u ++ rest ∧
    (∀ i, (rest.foldl (fun st r => st.addStatement u r) st).trm i = st.trm i) ∧
    (∀ i, (rest.foldl (fun st r => st.addStatement u r) st).prd i = st.prd i) := by
  induction rest generalizing st with
  | nil => exact ⟨.refl h, rfl, by simp, fun _ => rfl, fun _ => rfl⟩
  | cons r rest ih =>
    have h1 := Step.addStatement (J := J) (lo := lo) (hi := hi) h hT hu (hr r (List.mem_cons_self ..))
    obtain ⟨a, b, c, d, e⟩ := ih (st := st.addStatement u r) h1.inv (by simpa using hu) (fun r' h' => hr r' (List.mem_cons_of_mem _ h'))
    refine ⟨h1.trans a, by simp only [List.foldl_cons]; rw [b]; simp, ?_, ?_, ?_⟩
    · simp only [List.foldl_cons]; rw [c, stm_addStatement hu]; simp
    · intro i
      simp only [List.foldl_cons]; rw [d]
      simp only [CfgSt.addStatement, CfgSt.trm, blk_upd]; split <;> rfl
    · intro i
      simp only [List.foldl_cons]; rw [e, prd_addStatement]

theorem deadBlock_step {st : CfgSt} (h : Inv st) (c : Nat) (hT : T st.len) {rest : List Range}
    (hr : ∀ r ∈ rest, InReg (lo st.len) hi r) :
    Step T J lo hi st (st.deadBlock c rest) ∧ (st.deadBlock c rest).len = st.len + 1 ∧
    (st.deadBlock c rest).stm st.len = rest ∧ (st.deadBlock c rest).trm st.len = .none ∧
    (st.deadBlock c rest).prd st.len = [c] ∧ (∀ i, (st.deadBlock c rest).trm i = st.trm i) := by
  unfold CfgSt.deadBlock
  have h1 : Step T J lo hi st st.newBlock := .newBlock h
  have h2 : Step T J lo hi st (st.newBlock.addPred st.len c) := h1.trans (.addPred h1.inv _ _)
  have hlen : (st.newBlock.addPred st.len c).len = st.len + 1 := by simp
  obtain ⟨a, b, d, e, f⟩ := deadLoop_step (J := J) h2.inv (u := st.len) (by omega) hT hr
  refine ⟨h2.trans a, b.trans hlen, ?_, ?_, ?_, ?_⟩
  · rw [d]
    have : (st.newBlock.addPred st.len c).stm st.len = [] := by
      rw [(Fr.addPred (fun _ => False) st.newBlock st.len c).stm _ (fun h => h)]
      simp [CfgSt.stm, blk_ge (Nat.le_refl _)]
    rw [this]; rfl
  · rw [e, (Fr.addPred (fun _ => False) st.newBlock st.len c).trm _ (fun h => h)]
    simp [CfgSt.trm, blk_ge (Nat.le_refl _)]
  · rw [f]
    simp only [CfgSt.addPred, CfgSt.prd, blk_upd]
    rw [if_pos ⟨trivial, by simp⟩]
    simp [blk_ge (Nat.le_refl _)]
  · intro i
    rw [e, (Fr.addPred (fun _ => False) st.newBlock st.len c).trm _ (fun h => h)]
    simp [CfgSt.trm]

/-! ### Layout -/

mutual
theorem laid_pos : ∀ (s : Stmt), Laid s → s.range.start < s.range.stop
  | .brk r, h | .nxt r, h | .ret r, h | .call r _, h | .other r, h => by simpa [Laid, Stmt.range] using h
  | .ifThen r k t, h => by
    simp only [Laid] at h
    have := laid_pos t h.2.2
    simp only [Stmt.range] at *; omega
  | .ifElse r k t e, h => by
    simp only [Laid] at h
    have := laid_pos t h.2.2.2.1
    have := laid_pos e h.2.2.2.2
    simp only [Stmt.range] at *; omega
  | .fors r b, h | .whiles r _ b, h | .repeats r b, h => by
    simp only [Laid] at h
    have := laid_pos b h.2.2
    simp only [Stmt.range] at *; omega
  | .braced r ss, h => by
    simp only [Laid] at h
    have := laidSeq_le (r.start + 1) r.stop ss h
    simp only [Stmt.range]; omega
theorem laidSeq_le : ∀ (lo hi : Nat) (ss : List Stmt), LaidSeq lo hi ss → lo ≤ hi
  | lo, hi, [], h => by simpa [LaidSeq] using h
  | lo, hi, s :: ss, h => by
    simp only [LaidSeq] at h
    have := laidSeq_le _ hi ss h.2.2
    have := laid_pos s h.2.1
    omega
end

theorem laidSeq_mono {lo hi lo' hi' : Nat} {ss : List Stmt} (h : LaidSeq lo hi ss) (h1 : lo' ≤ lo) (h2 : hi ≤ hi') :
    LaidSeq lo' hi' ss := by
  induction ss generalizing lo lo' with
  | nil => simp only [LaidSeq] at *; omega
  | cons s ss ih =>
    simp only [LaidSeq] at *
    exact ⟨by omega, h.2.1, ih h.2.2 (Nat.le_refl _)⟩

theorem laid_body {s : Stmt} (h : Laid s) : LaidSeq s.range.start s.range.stop (bodyList s) := by
  have hp := laid_pos s h
  cases s with
  | braced r ss =>
    simp only [bodyList, Stmt.range]
    simp only [Laid] at h
    exact laidSeq_mono h (by omega) (Nat.le_refl _)
  | _ => simp only [bodyList, LaidSeq]; exact ⟨Nat.le_refl _, h, Nat.le_refl _⟩

theorem laidSeq_mem {lo hi : Nat} {ss : List Stmt} (h : LaidSeq lo hi ss) {s : Stmt} (hs : s ∈ ss) :
    InReg lo hi s.range ∧ Laid s := by
  induction ss generalizing lo with
  | nil => cases hs
  | cons x ss ih =>
    simp only [LaidSeq] at h
    have hx := laid_pos x h.2.1
    have hle := laidSeq_le _ _ _ h.2.2
    rcases List.mem_cons.1 hs with rfl | hs
    · exact ⟨⟨h.1, hx, hle⟩, h.2.1⟩
    · have := ih h.2.2 hs
      exact ⟨this.1.mono (by omega) (Nat.le_refl _), this.2⟩


theorem len_loopOpen (st : CfgSt) (c) : (st.loopOpen c).len = st.len + 3 := by
  show (CfgSt.addEdge _ _ _).len = _
  simp

theorem len_repeatOpen (st : CfgSt) (c) : (st.repeatOpen c).len = st.len + 2 := by
  show (CfgSt.addEdge _ _ _).len = _
  rw [len_addEdge]
  show (CfgSt.addEdge _ _ _).len = _
  simp

theorem Step.setLoops {st st' : CfgSt} (h : Step T J lo hi st st') {l : List LoopCtx}
    (hl : ∀ x ∈ l, x.next < st'.len ∧ x.brk < st'.len ∧ 2 ≤ x.next ∧ 2 ≤ x.brk) :
    Step T J lo hi st { st' with loops := l } :=
  ⟨h.fr.loops l, h.inv.setLoops hl, h.edges, h.stm⟩

theorem Step.loopOpen {st : CfgSt} (h : Inv st) {c : Nat} (hc : T c) (hn : T st.len)
    (hJ : J st.len ∧ J (st.len + 1) ∧ J (st.len + 2)) : Step T J lo hi st (st.loopOpen c) := by
  have two := h.two
  unfold CfgSt.loopOpen
  have h1 : Step T J lo hi st (st.newBlock.newBlock.newBlock) :=
    ((Step.newBlock h).trans (.newBlock h.newBlock)).trans (.newBlock h.newBlock.newBlock)
  have h2 : Step T J lo hi st (st.newBlock.newBlock.newBlock.setTerm c .goto) := h1.trans (.setTerm h1.inv _ hc)
  have hlen : (st.newBlock.newBlock.newBlock.setTerm c .goto).len = st.len + 3 := by simp
  have hlp : (st.newBlock.newBlock.newBlock.setTerm c .goto).loops = st.loops := by simp
  generalize st.newBlock.newBlock.newBlock.setTerm c .goto = s1 at *
  have h3 := h2.trans (.addEdge (a := c) (b := st.len) h2.inv (by omega) two hJ.1)
  have h4 := h3.trans (.setTerm h3.inv .loop hn)
  have h5 := h4.trans (.addEdge (a := st.len) (b := st.len + 1) h4.inv (by simp only [len_setTerm, len_addEdge]; omega)
    (by simp only [CfgSt.len] at *; omega) hJ.2.1)
  have h6 := h5.trans (.addEdge (a := st.len) (b := st.len + 2) h5.inv (by simp only [len_setTerm, len_addEdge]; omega)
    (by simp only [CfgSt.len] at *; omega) hJ.2.2)
  apply h6.setLoops
  intro x hx
  simp only [len_setTerm, len_addEdge]
  rcases List.mem_cons.1 hx with rfl | hx
  · simp only [CfgSt.len] at *; omega
  · have := h.loops x (by simpa [hlp] using hx)
    omega

theorem Step.repeatOpen {st : CfgSt} (h : Inv st) {c : Nat} (hc : T c)
    (hJ : J st.len ∧ J (st.len + 1)) : Step T J lo hi st (st.repeatOpen c) := by
  have two := h.two
  unfold CfgSt.repeatOpen
  have h1 : Step T J lo hi st (st.newBlock.newBlock) :=
    (Step.newBlock h).trans (.newBlock h.newBlock)
  have h2 : Step T J lo hi st (st.newBlock.newBlock.setTerm c .goto) := h1.trans (.setTerm h1.inv _ hc)
  have hlen : (st.newBlock.newBlock.setTerm c .goto).len = st.len + 2 := by simp
  have hlp : (st.newBlock.newBlock.setTerm c .goto).loops = st.loops := by simp
  generalize st.newBlock.newBlock.setTerm c .goto = s1 at *
  have h3 := h2.trans (.addEdge (a := c) (b := st.len) h2.inv (by omega) two hJ.1)
  have h4 : Step T J lo hi st { s1.addEdge c st.len with loops := ⟨st.len, st.len + 1⟩ :: (s1.addEdge c st.len).loops } := by
    apply h3.setLoops
    intro x hx
    simp only [len_addEdge]
    rcases List.mem_cons.1 hx with rfl | hx
    · simp only [CfgSt.len] at *; omega
    · have := h.loops x (by simpa [hlp] using hx)
      omega
  refine h4.trans (.addEdge (b := st.len + 1) h4.inv ?_ (by simp only [CfgSt.len] at *; omega) hJ.2)
  have : ({ s1.addEdge c st.len with loops := ⟨st.len, st.len + 1⟩ :: (s1.addEdge c st.len).loops } : CfgSt).len
    = (s1.addEdge c st.len).len := rfl
  rw [this, len_addEdge]; omega

theorem len_loopClose (st : CfgSt) (a b) : (st.loopClose a b).len = st.len := by
  unfold CfgSt.loopClose
  simp only
  split
  · show (CfgSt.addEdge _ _ _).len = _
    simp
  · rfl

theorem Step.loopClose {st : CfgSt} (h : Inv st) {last target : Nat} (hl : T last) (ha : target < st.len) (ha2 : 2 ≤ target)
    (hJ : J target) : Step T J lo hi st (st.loopClose last target) := by
  unfold CfgSt.loopClose
  have h1 := Step.setTerm (J := J) (lo := lo) (hi := hi) h .goto hl
  have h2 := h1.trans (.addEdge (a := last) h1.inv (by simpa using ha) ha2 hJ)
  simp only
  split
  · apply h2.setLoops
    intro x hx
    simpa using h.loops x (List.mem_of_mem_tail hx)
  · apply (Step.refl h).setLoops
    intro x hx
    exact h.loops x (List.mem_of_mem_tail hx)

/-- The blocks a builder may modify. -/
def Own (c n : Nat) (i : Nat) : Prop := i = c ∨ n ≤ i

/-- The blocks a builder may jump to: new ones, and the targets of the enclosing loop. -/
def Jmp (st : CfgSt) (j : Nat) : Prop := st.len ≤ j ∨ ∃ l ∈ st.loops.head?, j = l.next ∨ j = l.brk

/-- What building statements within `[lo, hi)` from block `c` does; new blocks only receive
statements from `lo'` on. -/
structure Built (lo lo' hi c : Nat) (st : CfgSt) (p : CfgSt × Nat) : Prop where
  step : Step (Own c st.len) (Jmp st) (fun b => if b = c then lo else lo') hi st p.1
  loops : p.1.loops = st.loops
  cur : p.2 < p.1.len
  cur' : Own c st.len p.2

theorem Built.trans {lo hi c : Nat} {st : CfgSt} {p q : CfgSt × Nat} (h : Built lo lo hi c st p)
    (h' : Built lo lo hi p.2 p.1 q) : Built lo lo hi c st q := by
  have hlen := h.step.fr.len
  refine ⟨h.step.trans (h'.step.mono ?_ ?_ (by simp) (Nat.le_refl _)), h'.loops.trans h.loops, h'.cur, ?_⟩
  · rintro i (rfl | hi)
    · exact h.cur'
    · exact Or.inr (by omega)
  · rintro i (hi | hi)
    · exact Or.inl (by omega)
    · exact Or.inr (by rwa [h.loops] at hi)
  · rcases h'.cur' with e | e
    · rw [e]; exact h.cur'
    · exact Or.inr (by omega)

/-- The continuation block of a statement is the current block or a fresh, empty block. -/
def FreshCur (c : Nat) (p : CfgSt × Nat) : Prop :=
  p.2 = c ∨ (p.1.stm p.2 = [] ∧ p.1.trm p.2 = .none)

theorem stm_new {lo lo' hi c : Nat} {st : CfgSt} {p : CfgSt × Nat} (h : Built lo lo' hi c st p) (hc : c < st.len) {b : Nat}
    (hb : st.len ≤ b) {r : Range} (hr : r ∈ p.1.stm b) : InReg lo' hi r := by
  obtain ⟨e, he, hreg⟩ := h.step.stm b
  have : st.stm b = [] := by simp [CfgSt.stm, blk_ge hb]
  rw [this] at he
  simp only [List.nil_append] at he
  rw [he] at hr
  have := hreg r hr
  rwa [if_neg (by omega)] at this

theorem buildBreak_step {st : CfgSt} (h : Inv st) {c : Nat} {lo : Nat → Nat} {hi : Nat} :
    Step (Own c st.len) (Jmp st) lo hi st (st.buildBreak c) ∧ (st.buildBreak c).loops = st.loops ∧
    (st.buildBreak c).len = st.len := by
  unfold CfgSt.buildBreak
  split
  · rename_i l ls hl
    have h1 : Step (Own c st.len) (Jmp st) lo hi st (st.setTerm c .brk) := .setTerm h _ (Or.inl rfl)
    have hb := h.loops l (by simp [hl])
    refine ⟨h1.trans (.addEdge h1.inv (by simpa using hb.2.1) hb.2.2.2 (Or.inr ⟨l, by simp [hl], Or.inr rfl⟩)), ?_, ?_⟩
    · simp
    · simp
  · exact ⟨.refl h, rfl, rfl⟩

theorem buildNext_step {st : CfgSt} (h : Inv st) {c : Nat} {lo : Nat → Nat} {hi : Nat} :
    Step (Own c st.len) (Jmp st) lo hi st (st.buildNext c) ∧ (st.buildNext c).loops = st.loops ∧
    (st.buildNext c).len = st.len := by
  unfold CfgSt.buildNext
  split
  · rename_i l ls hl
    have h1 : Step (Own c st.len) (Jmp st) lo hi st (st.setTerm c .nxt) := .setTerm h _ (Or.inl rfl)
    have hb := h.loops l (by simp [hl])
    refine ⟨h1.trans (.addEdge h1.inv (by simpa using hb.1) hb.2.2.1 (Or.inr ⟨l, by simp [hl], Or.inl rfl⟩)), ?_, ?_⟩
    · simp
    · simp
  · exact ⟨.refl h, rfl, rfl⟩

theorem buildReturn_step {st : CfgSt} (h : Inv st) {c : Nat} {lo : Nat → Nat} {hi : Nat} :
    Step (Own c st.len) (Jmp st) lo hi st (st.buildReturn c) ∧ (st.buildReturn c).loops = st.loops ∧
    (st.buildReturn c).len = st.len :=
  ⟨.setTerm h _ (Or.inl rfl), rfl, by simp [CfgSt.buildReturn]⟩

theorem buildStop_step {st : CfgSt} (h : Inv st) {c : Nat} {lo : Nat → Nat} {hi : Nat} :
    Step (Own c st.len) (Jmp st) lo hi st (st.buildStop c) ∧ (st.buildStop c).loops = st.loops ∧
    (st.buildStop c).len = st.len :=
  ⟨.setTerm h _ (Or.inl rfl), rfl, by simp [CfgSt.buildStop]⟩

theorem addStatement_step {st : CfgSt} (h : Inv st) {c : Nat} (hc : c < st.len) {r : Range} {lo : Nat → Nat} {hi : Nat}
    (hr : InReg (lo c) hi r) :
    Step (Own c st.len) (Jmp st) lo hi st (st.addStatement c r) ∧ (st.addStatement c r).loops = st.loops ∧
    (st.addStatement c r).len = st.len :=
  ⟨.addStatement h (Or.inl rfl) hc hr, rfl, by simp⟩

theorem buildCall_step {st : CfgSt} (h : Inv st) {c : Nat} (hc : c < st.len) {r : Range} {lo : Nat → Nat} {hi : Nat}
    (hr : InReg (lo c) hi r) (stop : List Str) (f : Str) :
    Step (Own c st.len) (Jmp st) lo hi st (st.buildCall stop c r f) ∧ (st.buildCall stop c r f).loops = st.loops ∧
    (st.buildCall stop c r f).len = st.len := by
  unfold CfgSt.buildCall
  simp only
  split
  · exact buildReturn_step h
  split
  · exact buildBreak_step h
  split
  · exact buildNext_step h
  split
  · exact buildStop_step h
  · exact addStatement_step h hc hr

/-- Leaf statements. -/
theorem built_leaf {lo lo' hi c : Nat} {st st' : CfgSt} (hc : c < st.len)
    (h : Step (Own c st.len) (Jmp st) (fun b => if b = c then lo else lo') hi st st' ∧ st'.loops = st.loops ∧ st'.len = st.len) :
    Built lo lo' hi c st (st', c) ∧ FreshCur c (st', c) :=
  ⟨⟨h.1, h.2.1, by rw [h.2.2]; exact hc, Or.inl rfl⟩, Or.inl rfl⟩


/-! ### Branches -/

/-- One branch of an `if` (cfg/builder.rs:368-396, 398-430). -/
def branchSt (stop : List Str) (dead : Bool) (t : Stmt) (b after : Nat) (s : CfgSt) : CfgSt :=
  if dead then s.pushStatement b t.range
  else (buildStmts stop (bodyList t) b s).1.closeBranch (buildStmts stop (bodyList t) b s).2 after

theorem buildStmt_ifElse (stop : List Str) {r k t e body c} {st : CfgSt} (h : st.hasIncoming c = true) :
    buildStmt stop (.ifElse r k t e) body c st =
      ((branchSt stop (evalConst k = some true) e (st.len + 1) (st.len + 2)
        (branchSt stop (evalConst k = some false) t st.len (st.len + 2) (st.ifOpen c k))).ifEnd c (st.len + 2),
       st.len + 2) := by
  simp [buildStmt, h, branchSt, buildStmt_body]

theorem buildStmt_ifThen (stop : List Str) {r k t body c} {st : CfgSt} (h : st.hasIncoming c = true) :
    buildStmt stop (.ifThen r k t) body c st =
      ((((branchSt stop (evalConst k = some false) t st.len (st.len + 2) (st.ifOpen c k)).setTerm (st.len + 1) .goto).addEdge
        (st.len + 1) (st.len + 2)).ifEnd c (st.len + 2), st.len + 2) := by
  simp [buildStmt, h, branchSt, buildStmt_body]

theorem buildStmt_fors (stop : List Str) {r b body c} {st : CfgSt} (h : st.hasIncoming c = true) :
    buildStmt stop (.fors r b) body c st =
      ((buildStmts stop (bodyList b) (st.len + 1) (st.loopOpen c)).1.loopClose
        (buildStmts stop (bodyList b) (st.len + 1) (st.loopOpen c)).2 st.len, st.len + 2) := by
  simp [buildStmt, h, buildStmt_body]

theorem buildStmt_whiles (stop : List Str) {r k b body c} {st : CfgSt} (h : st.hasIncoming c = true) :
    buildStmt stop (.whiles r k b) body c st =
      ((buildStmts stop (bodyList b) (st.len + 1) (st.loopOpen c)).1.loopClose
        (buildStmts stop (bodyList b) (st.len + 1) (st.loopOpen c)).2 st.len, st.len + 2) := by
  simp [buildStmt, h, buildStmt_body]

theorem buildStmt_repeats (stop : List Str) {r b body c} {st : CfgSt} (h : st.hasIncoming c = true) :
    buildStmt stop (.repeats r b) body c st =
      ((buildStmts stop (bodyList b) st.len (st.repeatOpen c)).1.loopClose
        (buildStmts stop (bodyList b) st.len (st.repeatOpen c)).2 st.len, st.len + 1) := by
  simp [buildStmt, h, buildStmt_body]

/-- Building the list `ss` behaves well wherever it is laid out. -/
def GoodList (stop : List Str) (ss : List Stmt) : Prop :=
  ∀ lo hi c st, LaidSeq lo hi ss → Inv st → c < st.len → Built lo lo hi c st (buildStmts stop ss c st)

def GoodStmt (stop : List Str) (s : Stmt) : Prop :=
  ∀ c st, Laid s → Inv st → c < st.len →
    Built s.range.start (s.range.start + 1) s.range.stop c st (buildStmt stop s false c st) ∧
    FreshCur c (buildStmt stop s false c st)

theorem Step.branchSt {stop : List Str} {t : Stmt} (hg : GoodList stop (bodyList t)) (hl : Laid t) {s : CfgSt} (h : Inv s)
    (dead : Bool) {b after lo hi : Nat} (hb : b < s.len) (ha : after < s.len) (ha2 : 2 ≤ after)
    (hlo : lo ≤ t.range.start) (hhi : t.range.stop ≤ hi) :
    Step (Own b s.len) (fun j => Jmp s j ∨ j = after) (fun _ => lo) hi s (Jarl.branchSt stop dead t b after s) ∧
    (Jarl.branchSt stop dead t b after s).loops = s.loops := by
  have hp := laid_pos t hl
  unfold Jarl.branchSt
  split
  · exact ⟨.pushStatement h (Or.inl rfl) hb ⟨hlo, hp, hhi⟩, rfl⟩
  · have hB := hg t.range.start t.range.stop b s (laid_body hl) h hb
    have h1 : Step (Own b s.len) (fun j => Jmp s j ∨ j = after) (fun _ => lo) hi s (buildStmts stop (bodyList t) b s).1 :=
      hB.step.mono (fun _ h => h) (fun _ h => Or.inl h) (by intro i _; split <;> omega) hhi
    have hlen := h1.fr.len
    refine ⟨h1.trans (.closeBranch h1.inv hB.cur' (by omega) ha2 (Or.inr rfl)), ?_⟩
    unfold CfgSt.closeBranch
    split
    · simp [hB.loops]
    · exact hB.loops

/-- Blocks that do not exist yet are empty, and stay so as long as nothing touches them. -/
theorem fresh_keep {T : Nat → Prop} {st st' : CfgSt} (h : Fr T st st') {i : Nat} (hi : ¬ T i)
    (h0 : st.stm i = [] ∧ st.trm i = .none) : st'.stm i = [] ∧ st'.trm i = .none :=
  ⟨(h.stm i hi).trans h0.1, (h.trm i hi).trans h0.2⟩

theorem fresh_new {st : CfgSt} {i : Nat} (h : st.len ≤ i) : st.stm i = [] ∧ st.trm i = .none := by
  simp [CfgSt.stm, CfgSt.trm, blk_ge h]

/-- The four stages of building an `if`/`else`. -/
theorem ifElse_stages {stop : List Str} {r : Range} {k : Cond} {t e : Stmt} (ht : GoodList stop (bodyList t)) (he : GoodList stop (bodyList e))
    (hl : Laid (.ifElse r k t e)) {st : CfgSt} (h : Inv st) {c : Nat} (hc : c < st.len) :
    let st1 := st.ifOpen c k
    let st2 := branchSt stop (evalConst k = some false) t st.len (st.len + 2) st1
    let st3 := branchSt stop (evalConst k = some true) e (st.len + 1) (st.len + 2) st2
    let st4 := st3.ifEnd c (st.len + 2)
    let T := Own c st.len
    let lo := fun b => if b = c then r.start else r.start + 1
    Step T (Jmp st) lo r.stop st st1 ∧ Step T (Jmp st) lo r.stop st1 st2 ∧ Step T (Jmp st) lo r.stop st2 st3 ∧
    Step T (Jmp st) lo r.stop st3 st4 ∧ st4.loops = st.loops ∧ st1.len = st.len + 3 ∧ st2.loops = st.loops ∧
    (st1.stm st.len = [] ∧ st1.trm st.len = .none) ∧ (st2.stm (st.len + 1) = [] ∧ st2.trm (st.len + 1) = .none) ∧
    (st4.stm (st.len + 2) = [] ∧ st4.trm (st.len + 2) = .none) := by
  intro st1 st2 st3 st4 T lo
  simp only [Laid] at hl
  have htp := laid_pos t hl.2.2.2.1
  have hep := laid_pos e hl.2.2.2.2
  have two := h.two
  have h1 : Step T (Jmp st) lo r.stop st st1 := .ifOpen h k (Or.inl rfl) ⟨Or.inl (Nat.le_refl _), Or.inl (by omega)⟩
  have hl1 : st1.len = st.len + 3 := len_ifOpen ..
  have hlp1 : st1.loops = st.loops := loops_ifOpen ..
  have hJ1 : ∀ j, (Jmp st1 j ∨ j = st.len + 2) → Jmp st j := by
    rintro j ((hj | hj) | rfl)
    · exact Or.inl (by omega)
    · exact Or.inr (by rwa [hlp1] at hj)
    · exact Or.inl (by omega)
  have b1 := Step.branchSt ht hl.2.2.2.1 h1.inv (evalConst k = some false) (b := st.len) (after := st.len + 2) (lo := r.start + 1) (hi := r.stop)
    (by omega) (by omega) (by omega) (by omega) (by omega)
  have h2 : Step T (Jmp st) lo r.stop st1 st2 := b1.1.mono (by rintro i (rfl | hi); exact Or.inr (Nat.le_refl _); exact Or.inr (by omega))
    hJ1 (by rintro i _; simp only [lo]; split <;> omega) (Nat.le_refl _)
  have hl2 := h2.fr.len
  have hJ2 : ∀ j, (Jmp st2 j ∨ j = st.len + 2) → Jmp st j := by
    rintro j ((hj | hj) | rfl)
    · exact Or.inl (by omega)
    · exact Or.inr (by rwa [b1.2, hlp1] at hj)
    · exact Or.inl (by omega)
  have b2 := Step.branchSt he hl.2.2.2.2 h2.inv (evalConst k = some true) (b := st.len + 1) (after := st.len + 2) (lo := r.start + 1) (hi := r.stop)
    (by omega) (by omega) (by omega) (by omega) (by omega)
  have h3 : Step T (Jmp st) lo r.stop st2 st3 := b2.1.mono (by rintro i (rfl | hi); exact Or.inr (by omega); exact Or.inr (by omega))
    hJ2 (by rintro i _; simp only [lo]; split <;> omega) (Nat.le_refl _)
  refine ⟨h1, h2, h3, .ifEnd h3.inv _ _, ?_, hl1, ?_⟩
  · show (st3.ifEnd c (st.len + 2)).loops = _
    unfold CfgSt.ifEnd
    split
    · simp [st3, b2.2]; exact b1.2.trans hlp1
    · exact b2.2.trans (b1.2.trans hlp1)
  · refine ⟨b1.2.trans hlp1, ?_⟩
    have f1 : Fr (fun i => i = c) st st1 :=
      (Step.ifOpen (T := fun i => i = c) (J := fun _ => True) (lo := lo) (hi := 0) h k rfl ⟨trivial, trivial⟩).fr
    have e0 := fresh_keep f1 (i := st.len) (by (try simp only [not_or]); omega) (fresh_new (Nat.le_refl _))
    have e1 := fresh_keep f1 (i := st.len + 1) (by (try simp only [not_or]); omega) (fresh_new (by omega))
    have e2 := fresh_keep f1 (i := st.len + 2) (by (try simp only [not_or]); omega) (fresh_new (by omega))
    have e1' := fresh_keep b1.1.fr (i := st.len + 1) (by rintro (h | h) <;> omega) e1
    have e2' := fresh_keep b1.1.fr (i := st.len + 2) (by rintro (h | h) <;> omega) e2
    have e2'' := fresh_keep b2.1.fr (i := st.len + 2) (by rintro (h | h) <;> omega) e2'
    exact ⟨e0, e1', fresh_keep (Step.ifEnd (T := fun _ => False) (J := fun _ => True) (lo := lo) (hi := 0) h3.inv c (st.len + 2)).fr (fun h => h) e2''⟩

/-- The four stages of building an `if` without `else`. -/
theorem ifThen_stages {stop : List Str} {r : Range} {k : Cond} {t : Stmt} (ht : GoodList stop (bodyList t))
    (hl : Laid (.ifThen r k t)) {st : CfgSt} (h : Inv st) {c : Nat} (hc : c < st.len) :
    let st1 := st.ifOpen c k
    let st2 := branchSt stop (evalConst k = some false) t st.len (st.len + 2) st1
    let st3 := (st2.setTerm (st.len + 1) .goto).addEdge (st.len + 1) (st.len + 2)
    let st4 := st3.ifEnd c (st.len + 2)
    let T := Own c st.len
    let lo := fun b => if b = c then r.start else r.start + 1
    Step T (Jmp st) lo r.stop st st1 ∧ Step T (Jmp st) lo r.stop st1 st2 ∧ Step T (Jmp st) lo r.stop st2 st3 ∧
    Step T (Jmp st) lo r.stop st3 st4 ∧ st4.loops = st.loops ∧ st1.len = st.len + 3 ∧ st2.loops = st.loops ∧
    (st1.stm st.len = [] ∧ st1.trm st.len = .none) ∧ (st2.stm (st.len + 1) = [] ∧ st2.trm (st.len + 1) = .none) ∧
    (st4.stm (st.len + 2) = [] ∧ st4.trm (st.len + 2) = .none) := by
  intro st1 st2 st3 st4 T lo
  simp only [Laid] at hl
  have htp := laid_pos t hl.2.2
  have two := h.two
  have h1 : Step T (Jmp st) lo r.stop st st1 := .ifOpen h k (Or.inl rfl) ⟨Or.inl (Nat.le_refl _), Or.inl (by omega)⟩
  have hl1 : st1.len = st.len + 3 := len_ifOpen ..
  have hlp1 : st1.loops = st.loops := loops_ifOpen ..
  have hJ1 : ∀ j, (Jmp st1 j ∨ j = st.len + 2) → Jmp st j := by
    rintro j ((hj | hj) | rfl)
    · exact Or.inl (by omega)
    · exact Or.inr (by rwa [hlp1] at hj)
    · exact Or.inl (by omega)
  have b1 := Step.branchSt ht hl.2.2 h1.inv (evalConst k = some false) (b := st.len) (after := st.len + 2) (lo := r.start + 1) (hi := r.stop)
    (by omega) (by omega) (by omega) (by omega) (by omega)
  have h2 : Step T (Jmp st) lo r.stop st1 st2 := b1.1.mono (by rintro i (rfl | hi); exact Or.inr (Nat.le_refl _); exact Or.inr (by omega))
    hJ1 (by rintro i _; simp only [lo]; split <;> omega) (Nat.le_refl _)
  have hl2 := h2.fr.len
  have h3a : Step T (Jmp st) lo r.stop st2 (st2.setTerm (st.len + 1) .goto) := .setTerm h2.inv _ (Or.inr (by omega))
  have h3 : Step T (Jmp st) lo r.stop st2 st3 := h3a.trans (.addEdge h3a.inv (by simp only [len_setTerm]; omega) (by omega) (Or.inl (by omega)))
  refine ⟨h1, h2, h3, .ifEnd h3.inv _ _, ?_, hl1, ?_⟩
  · show (st3.ifEnd c (st.len + 2)).loops = _
    unfold CfgSt.ifEnd
    split
    · simp [st3]; exact b1.2.trans hlp1
    · exact b1.2.trans hlp1
  · refine ⟨b1.2.trans hlp1, ?_⟩
    have f1 : Fr (fun i => i = c) st st1 :=
      (Step.ifOpen (T := fun i => i = c) (J := fun _ => True) (lo := lo) (hi := 0) h k rfl ⟨trivial, trivial⟩).fr
    have e0 := fresh_keep f1 (i := st.len) (by (try simp only [not_or]); omega) (fresh_new (Nat.le_refl _))
    have e1 := fresh_keep f1 (i := st.len + 1) (by (try simp only [not_or]); omega) (fresh_new (by omega))
    have e2 := fresh_keep f1 (i := st.len + 2) (by (try simp only [not_or]); omega) (fresh_new (by omega))
    have e1' := fresh_keep b1.1.fr (i := st.len + 1) (by rintro (h | h) <;> omega) e1
    have e2' := fresh_keep b1.1.fr (i := st.len + 2) (by rintro (h | h) <;> omega) e2
    have f3 : Fr (fun i => i = st.len + 1) st2 st3 := (Fr.setTerm st2 .goto (T := fun i => i = st.len + 1) rfl).trans (.addEdge _ _ _ _)
    have e2'' := fresh_keep f3 (i := st.len + 2) (by simp) e2'
    exact ⟨e0, e1', fresh_keep (Step.ifEnd (T := fun _ => False) (J := fun _ => True) (lo := lo) (hi := 0) h3.inv c (st.len + 2)).fr (fun h => h) e2''⟩

/-- The stages of building a `for` or `while` loop. -/
theorem loop_stages {stop : List Str} {r : Range} {b : Stmt} (hg : GoodList stop (bodyList b))
    (hs : r.start < b.range.start) (ht : b.range.stop ≤ r.stop) (hl : Laid b) {st : CfgSt} (h : Inv st) {c : Nat} (hc : c < st.len) :
    let st1 := st.loopOpen c
    let p := buildStmts stop (bodyList b) (st.len + 1) st1
    let st3 := p.1.loopClose p.2 st.len
    let T := Own c st.len
    let lo := fun b => if b = c then r.start else r.start + 1
    Step T (Jmp st) lo r.stop st st1 ∧ Step T (Jmp st) lo r.stop st1 p.1 ∧ Step T (Jmp st) lo r.stop p.1 st3 ∧
    st3.loops = st.loops ∧ st1.len = st.len + 3 ∧
    (st1.stm (st.len + 1) = [] ∧ st1.trm (st.len + 1) = .none) ∧ (st3.stm (st.len + 2) = [] ∧ st3.trm (st.len + 2) = .none) := by
  intro st1 p st3 T lo
  have two := h.two
  have h1 : Step T (Jmp st) lo r.stop st st1 := .loopOpen h (Or.inl rfl) (Or.inr (Nat.le_refl _))
    ⟨Or.inl (Nat.le_refl _), Or.inl (by omega), Or.inl (by omega)⟩
  have hl1 : st1.len = st.len + 3 := len_loopOpen ..
  have hB := hg b.range.start b.range.stop (st.len + 1) st1 (laid_body hl) h1.inv (by omega)
  have h2 : Step T (Jmp st) lo r.stop st1 p.1 := by
    refine hB.step.mono ?_ ?_ ?_ ht
    · rintro i (rfl | hi)
      · exact Or.inr (by omega)
      · exact Or.inr (by omega)
    · rintro j (hj | ⟨l, hl, hj⟩)
      · exact Or.inl (by omega)
      · have hl : (st.loopOpen c).loops.head? = some l := hl
        simp only [CfgSt.loopOpen, List.head?_cons, Option.some.injEq] at hl
        subst hl
        rcases hj with rfl | rfl
        · exact Or.inl (Nat.le_refl _)
        · exact Or.inl (Nat.le_add_right _ _)
    · intro i _; simp only [lo]; split <;> split <;> omega
  have hl2 := h2.fr.len
  have h3 : Step T (Jmp st) lo r.stop p.1 st3 := by
    refine .loopClose h2.inv ?_ (by omega) two (Or.inl (Nat.le_refl _))
    rcases hB.cur' with e | e
    · show T p.2; rw [e]; exact Or.inr (by omega)
    · exact Or.inr (by have : st1.len ≤ p.2 := e; omega)
  have f1 : Fr (fun i => i = c ∨ i = st.len) st st1 :=
    (Step.loopOpen (T := fun i => i = c ∨ i = st.len) (J := fun _ => True) (lo := lo) (hi := 0) h (Or.inl rfl) (Or.inr rfl) ⟨trivial, trivial, trivial⟩).fr
  have e1 := fresh_keep f1 (i := st.len + 1) (by (try simp only [not_or]); omega) (fresh_new (by omega))
  have e2 := fresh_keep f1 (i := st.len + 2) (by (try simp only [not_or]); omega) (fresh_new (by omega))
  have e2' : p.1.stm (st.len + 2) = [] ∧ p.1.trm (st.len + 2) = .none :=
    fresh_keep hB.step.fr (i := st.len + 2) (by rintro (h | h) <;> omega) e2
  have hcur : p.2 = st.len + 1 ∨ st1.len ≤ p.2 := hB.cur'
  have f3 : Fr (fun i => i = p.2) p.1 st3 :=
    (Step.loopClose (T := fun i => i = p.2) (J := fun _ => True) (lo := lo) (hi := 0) h2.inv rfl (by omega) two trivial).fr
  have e3 := fresh_keep f3 (i := st.len + 2) (by rcases hcur with h | h <;> omega) e2'
  refine ⟨h1, h2, h3, ?_, hl1, e1, e3⟩
  show (p.1.loopClose p.2 st.len).loops = _
  have hp : p.1.loops = _ := hB.loops
  have h0 : st1.loops.tail = st.loops := by
    simp only [st1, CfgSt.loopOpen, List.tail_cons]
    rfl
  unfold CfgSt.loopClose
  simp only
  split
  · simp [hp, h0]
  · simp [hp, h0]

/-- The stages of building a `repeat` loop. -/
theorem repeat_stages {stop : List Str} {r : Range} {b : Stmt} (hg : GoodList stop (bodyList b))
    (hs : r.start < b.range.start) (ht : b.range.stop ≤ r.stop) (hl : Laid b) {st : CfgSt} (h : Inv st) {c : Nat} (hc : c < st.len) :
    let st1 := st.repeatOpen c
    let p := buildStmts stop (bodyList b) st.len st1
    let st3 := p.1.loopClose p.2 st.len
    let T := Own c st.len
    let lo := fun b => if b = c then r.start else r.start + 1
    Step T (Jmp st) lo r.stop st st1 ∧ Step T (Jmp st) lo r.stop st1 p.1 ∧ Step T (Jmp st) lo r.stop p.1 st3 ∧
    st3.loops = st.loops ∧ st1.len = st.len + 2 ∧
    (st1.stm st.len = [] ∧ st1.trm st.len = .none) ∧ (st3.stm (st.len + 1) = [] ∧ st3.trm (st.len + 1) = .none) := by
  intro st1 p st3 T lo
  have two := h.two
  have h1 : Step T (Jmp st) lo r.stop st st1 := .repeatOpen h (Or.inl rfl)
    ⟨Or.inl (Nat.le_refl _), Or.inl (by omega)⟩
  have hl1 : st1.len = st.len + 2 := len_repeatOpen ..
  have hB := hg b.range.start b.range.stop st.len st1 (laid_body hl) h1.inv (by omega)
  have h2 : Step T (Jmp st) lo r.stop st1 p.1 := by
    refine hB.step.mono ?_ ?_ ?_ ht
    · rintro i (rfl | hi)
      · exact Or.inr (by omega)
      · exact Or.inr (by omega)
    · rintro j (hj | ⟨l, hl, hj⟩)
      · exact Or.inl (by omega)
      · have hl : (st.repeatOpen c).loops.head? = some l := hl
        simp only [CfgSt.repeatOpen, loops_addEdge, List.head?_cons, Option.some.injEq] at hl
        subst hl
        rcases hj with rfl | rfl
        · exact Or.inl (Nat.le_refl _)
        · exact Or.inl (Nat.le_add_right _ _)
    · intro i _; simp only [lo]; split <;> split <;> omega
  have hl2 := h2.fr.len
  have h3 : Step T (Jmp st) lo r.stop p.1 st3 := by
    refine .loopClose h2.inv ?_ (by omega) two (Or.inl (Nat.le_refl _))
    rcases hB.cur' with e | e
    · show T p.2; rw [e]; exact Or.inr (by omega)
    · exact Or.inr (by have : st1.len ≤ p.2 := e; omega)
  have f1 : Fr (fun i => i = c) st st1 :=
    (Step.repeatOpen (T := fun i => i = c) (J := fun _ => True) (lo := lo) (hi := 0) h rfl ⟨trivial, trivial⟩).fr
  have e1 := fresh_keep f1 (i := st.len) (by (try simp only [not_or]); omega) (fresh_new (by omega))
  have e2 := fresh_keep f1 (i := st.len + 1) (by (try simp only [not_or]); omega) (fresh_new (by omega))
  have e2' : p.1.stm (st.len + 1) = [] ∧ p.1.trm (st.len + 1) = .none :=
    fresh_keep hB.step.fr (i := st.len + 1) (by rintro (h | h) <;> omega) e2
  have hcur : p.2 = st.len ∨ st1.len ≤ p.2 := hB.cur'
  have f3 : Fr (fun i => i = p.2) p.1 st3 :=
    (Step.loopClose (T := fun i => i = p.2) (J := fun _ => True) (lo := lo) (hi := 0) h2.inv rfl (by omega) two trivial).fr
  have e3 := fresh_keep f3 (i := st.len + 1) (by rcases hcur with h | h <;> omega) e2'
  refine ⟨h1, h2, h3, ?_, hl1, e1, e3⟩
  show (p.1.loopClose p.2 st.len).loops = _
  have hp : p.1.loops = _ := hB.loops
  have h0 : st1.loops.tail = st.loops := by
    simp only [st1, CfgSt.repeatOpen, loops_addEdge, List.tail_cons]
    rfl
  unfold CfgSt.loopClose
  simp only
  split
  · simp [hp, h0]
  · simp [hp, h0]


theorem buildStmt_dead (stop : List Str) {s : Stmt} {c : Nat} {st : CfgSt} (h : st.hasIncoming c = false) :
    buildStmt stop s false c st = (st.addStatement c s.range, c) := by
  cases s <;> simp [buildStmt, h, Stmt.range]

theorem good (stop : List Str) : (∀ s, GoodStmt stop s) ∧ (∀ ss, GoodList stop ss) := by
  have dead : ∀ (s : Stmt) c (st : CfgSt), Laid s → Inv st → c < st.len →
      Built s.range.start (s.range.start + 1) s.range.stop c st (st.addStatement c s.range, c) ∧
      FreshCur c (st.addStatement c s.range, c) := by
    intro s c st hl hI hc
    exact built_leaf hc (addStatement_step hI hc ⟨by simp, laid_pos s hl, Nat.le_refl _⟩)
  have live : ∀ s, (∀ c (st : CfgSt), Laid s → Inv st → c < st.len → st.hasIncoming c = true →
      Built s.range.start (s.range.start + 1) s.range.stop c st (buildStmt stop s false c st) ∧
      FreshCur c (buildStmt stop s false c st)) → GoodStmt stop s := by
    intro s h c st hl hI hc
    cases hin : st.hasIncoming c with
    | true => exact h c st hl hI hc hin
    | false => rw [buildStmt_dead stop hin]; exact dead s c st hl hI hc
  apply Stmt.both
  · intro lo hi c st hl hI hc
    exact ⟨.refl hI, rfl, hc, Or.inl rfl⟩
  · intro s ss hs hss lo hi c st hl hI hc
    have hll := hl
    simp only [LaidSeq] at hl
    have hle := laidSeq_le _ _ _ hl.2.2
    have hp := laid_pos s hl.2.1
    obtain ⟨h1, -⟩ := hs c st hl.2.1 hI hc
    have h1' : Built lo lo hi c st (buildStmt stop s false c st) :=
      ⟨h1.step.mono (fun _ h => h) (fun _ h => h) (by intro i _; split <;> omega) hle, h1.loops, h1.cur, h1.cur'⟩
    simp only [buildStmts]
    generalize buildStmt stop s false c st = p at *
    have hlen := h1.step.fr.len
    split
    · obtain ⟨hst, hlen2, -⟩ := deadBlock_step (T := Own c st.len) (J := Jmp st) (lo := fun b => if b = c then lo else lo) (hi := hi)
        h1.step.inv p.2 (Or.inr (by omega)) (rest := ss.map Stmt.range) (by
          intro r hr
          obtain ⟨x, hx, rfl⟩ := List.mem_map.1 hr
          simp only [ite_self]
          exact (laidSeq_mem hll (List.mem_cons_of_mem _ hx)).1)
      refine ⟨h1'.step.trans hst, ?_, ?_, ?_⟩
      · have : ∀ (l : List Range) (s : CfgSt) u, (l.foldl (fun st r => st.addStatement u r) s).loops = s.loops := by
          intro l
          induction l with
          | nil => intros; rfl
          | cons a l ih => intro s u; simp only [List.foldl_cons]; rw [ih]; rfl
        simp only [CfgSt.deadBlock, this]
        exact h1.loops
      · simp only; show p.1.len < _; omega
      · exact Or.inr hlen
    · have := hss lo hi p.2 p.1 (laidSeq_mono hl.2.2 (by omega) (Nat.le_refl _)) h1.step.inv h1.cur
      exact h1'.trans this
  · intro r
    apply live; intro c st hl hI hc hin
    simp only [buildStmt, hin, Bool.true_eq_false, if_false]
    exact built_leaf hc (buildBreak_step hI)
  · intro r
    apply live; intro c st hl hI hc hin
    simp only [buildStmt, hin, Bool.true_eq_false, if_false]
    exact built_leaf hc (buildNext_step hI)
  · intro r
    apply live; intro c st hl hI hc hin
    simp only [buildStmt, hin, Bool.true_eq_false, if_false]
    exact built_leaf hc (buildReturn_step hI)
  · intro r f
    apply live; intro c st hl hI hc hin
    simp only [buildStmt, hin, Bool.true_eq_false, if_false]
    exact built_leaf hc (buildCall_step hI hc ⟨by simp [Stmt.range], laid_pos _ hl, Nat.le_refl _⟩ stop f)
  · intro r c st hl hI hc
    simp only [buildStmt]
    exact dead (.other r) c st hl hI hc
  · intro r ss _ c st hl hI hc
    simp only [buildStmt]
    exact dead (.braced r ss) c st hl hI hc
  · intro r k t ht
    apply live; intro c st hl hI hc hin
    rw [buildStmt_ifThen stop hin]
    obtain ⟨a, b, c', d, e, f, -, -, -, g⟩ := ifThen_stages ht hl hI hc
    have hall := ((a.trans b).trans c').trans d
    have := (b.trans (c'.trans d)).fr.len
    exact ⟨⟨hall, e, by simp only [CfgSt.len] at *; omega, Or.inr (by simp)⟩, Or.inr g⟩
  · intro r k t e' ht he
    apply live; intro c st hl hI hc hin
    rw [buildStmt_ifElse stop hin]
    obtain ⟨a, b, c', d, e, f, -, -, -, g⟩ := ifElse_stages ht he hl hI hc
    have hall := ((a.trans b).trans c').trans d
    have := (b.trans (c'.trans d)).fr.len
    exact ⟨⟨hall, e, by simp only [CfgSt.len] at *; omega, Or.inr (by simp)⟩, Or.inr g⟩
  · intro r b hb
    apply live; intro c st hl hI hc hin
    rw [buildStmt_fors stop hin]
    simp only [Laid] at hl
    obtain ⟨a, b, c', e, f, -, g⟩ := loop_stages hb hl.1 hl.2.1 hl.2.2 hI hc
    have := (b.trans c').fr.len
    exact ⟨⟨(a.trans b).trans c', e, by simp only [CfgSt.len] at *; omega, Or.inr (by simp)⟩, Or.inr g⟩
  · intro r k b hb
    apply live; intro c st hl hI hc hin
    rw [buildStmt_whiles stop hin]
    simp only [Laid] at hl
    obtain ⟨a, b, c', e, f, -, g⟩ := loop_stages hb hl.1 hl.2.1 hl.2.2 hI hc
    have := (b.trans c').fr.len
    exact ⟨⟨(a.trans b).trans c', e, by simp only [CfgSt.len] at *; omega, Or.inr (by simp)⟩, Or.inr g⟩
  · intro r b hb
    apply live; intro c st hl hI hc hin
    rw [buildStmt_repeats stop hin]
    simp only [Laid] at hl
    obtain ⟨a, b, c', e, f, -, g⟩ := repeat_stages hb hl.1 hl.2.1 hl.2.2 hI hc
    have := (b.trans c').fr.len
    exact ⟨⟨(a.trans b).trans c', e, by simp only [CfgSt.len] at *; omega, Or.inr (by simp)⟩, Or.inr g⟩

end Jarl

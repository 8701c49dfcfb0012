import Verif.Lemmas.Cfg

/-!
# Soundness of the control-flow graph: what is executed lies in reachable blocks
-/

namespace Jarl

open Jarl.Spec

/-! ## Conditions -/

theorem or3_l {u v : Option Bool} (h : u ≠ some (!true)) : or3 u v ≠ some (!true) := by
  rcases u with _ | _ | _ <;> rcases v with _ | _ | _ <;> simp_all [or3]
theorem or3_r {u v : Option Bool} (h : v ≠ some (!true)) : or3 u v ≠ some (!true) := by
  rcases u with _ | _ | _ <;> rcases v with _ | _ | _ <;> simp_all [or3]
theorem or3_b {u v : Option Bool} (h : u ≠ some (!false)) (h' : v ≠ some (!false)) : or3 u v ≠ some (!false) := by
  rcases u with _ | _ | _ <;> rcases v with _ | _ | _ <;> simp_all [or3]
theorem and3_l {u v : Option Bool} (h : u ≠ some (!false)) : and3 u v ≠ some (!false) := by
  rcases u with _ | _ | _ <;> rcases v with _ | _ | _ <;> simp_all [and3]
theorem and3_r {u v : Option Bool} (h : v ≠ some (!false)) : and3 u v ≠ some (!false) := by
  rcases u with _ | _ | _ <;> rcases v with _ | _ | _ <;> simp_all [and3]
theorem and3_b {u v : Option Bool} (h : u ≠ some (!true)) (h' : v ≠ some (!true)) : and3 u v ≠ some (!true) := by
  rcases u with _ | _ | _ <;> rcases v with _ | _ | _ <;> simp_all [and3]

/-- A condition with a constant value never has the other value. -/
theorem evalConst_sound {σ : Type} {I : Interp σ} {k : Cond} {s s' : σ} {x : RLgl} (h : Eval I k s x s') :
    ∀ b, evalConst k = some b → ∀ e ∈ x, e ≠ some (!b) := by
  have getD_mem : ∀ (l : RLgl) (i : Nat), l ≠ [] → l.getD (i % l.length) none ∈ l := by
    intro l i hl
    have : i % l.length < l.length := Nat.mod_lt _ (by cases l <;> simp_all)
    rw [List.getD_eq_getElem?_getD, List.getElem?_eq_getElem this]
    exact List.getElem_mem this
  have first : ∀ (l : RLgl) (v : Option Bool), (∀ e ∈ l, e ≠ v) → v ≠ none → firstOf l ≠ v := by
    intro l v hl hv
    cases l with
    | nil => exact fun h => hv h.symm
    | cons a l => exact hl a (List.mem_cons_self ..)
  induction h with
  | tru => intro b hb e he; simp [evalConst] at hb; subst hb; simp_all
  | fls => intro b hb e he; simp [evalConst] at hb; subst hb; simp_all
  | paren _ ih => intro b hb; exact ih b (by simpa [evalConst] using hb)
  | atom _ => intro b hb; simp [evalConst] at hb
  | @or a s x s1 b' y s2 z _ _ hz iha ihb =>
    intro b hb e he
    unfold Elementwise at hz
    split at hz
    · subst hz; cases he
    · rename_i hne
      simp only [not_or] at hne
      obtain ⟨i, hi, rfl⟩ := List.mem_iff_getElem.1 he
      have h1 := hz.2 i hi
      rw [List.getElem?_eq_getElem hi] at h1
      simp only [Option.some.injEq] at h1
      rw [h1]
      have mx := getD_mem x i hne.1
      have my := getD_mem y i hne.2
      generalize x.getD (i % x.length) none = u at *
      generalize y.getD (i % y.length) none = v at *
      simp only [evalConst] at hb
      split at hb
      · rename_i hc
        simp only [Option.some.injEq] at hb; subst hb
        rcases hc with hc | hc
        · have := iha true hc u mx
          exact or3_l this
        · have := ihb true hc v my
          exact or3_r this
      · split at hb
        · rename_i hc
          simp only [Option.some.injEq] at hb; subst hb
          have h1 := iha false hc.1 u mx
          have h2 := ihb false hc.2 v my
          exact or3_b h1 h2
        · cases hb
  | @and a s x s1 b' y s2 z _ _ hz iha ihb =>
    intro b hb e he
    unfold Elementwise at hz
    split at hz
    · subst hz; cases he
    · rename_i hne
      simp only [not_or] at hne
      obtain ⟨i, hi, rfl⟩ := List.mem_iff_getElem.1 he
      have h1 := hz.2 i hi
      rw [List.getElem?_eq_getElem hi] at h1
      simp only [Option.some.injEq] at h1
      rw [h1]
      have mx := getD_mem x i hne.1
      have my := getD_mem y i hne.2
      generalize x.getD (i % x.length) none = u at *
      generalize y.getD (i % y.length) none = v at *
      simp only [evalConst] at hb
      split at hb
      · rename_i hc
        simp only [Option.some.injEq] at hb; subst hb
        rcases hc with hc | hc
        · have := iha false hc u mx
          exact and3_l this
        · have := ihb false hc v my
          exact and3_r this
      · split at hb
        · rename_i hc
          simp only [Option.some.injEq] at hb; subst hb
          have h1 := iha true hc.1 u mx
          have h2 := ihb true hc.2 v my
          exact and3_b h1 h2
        · cases hb
  | @or2Left a s x s1 b' _ hx iha =>
    intro b hb e he
    simp only [List.mem_singleton] at he; subst he
    simp only [evalConst] at hb
    split at hb
    · simp only [Option.some.injEq] at hb; subst hb; decide
    · split at hb
      · rename_i hc
        exact absurd hx (first x _ (iha false hc.1) (by simp))
      · cases hb
  | @or2 a s x s1 b' y s2 _ hx _ iha ihb =>
    intro b hb e he
    simp only [List.mem_singleton] at he; subst he
    simp only [evalConst] at hb
    split at hb
    · rename_i hc
      simp only [Option.some.injEq] at hb; subst hb
      rcases hc with hc | hc
      · have := first x _ (iha true hc) (by simp)
        exact or3_l this
      · have := first y _ (ihb true hc) (by simp)
        exact or3_r this
    · split at hb
      · rename_i hc
        simp only [Option.some.injEq] at hb; subst hb
        have h1 := first x _ (iha false hc.1) (by simp)
        have h2 := first y _ (ihb false hc.2) (by simp)
        exact or3_b h1 h2
      · cases hb
  | @and2Left a s x s1 b' _ hx iha =>
    intro b hb e he
    simp only [List.mem_singleton] at he; subst he
    simp only [evalConst] at hb
    split at hb
    · simp only [Option.some.injEq] at hb; subst hb; decide
    · split at hb
      · rename_i hc
        exact absurd hx (first x _ (iha true hc.1) (by simp))
      · cases hb
  | @and2 a s x s1 b' y s2 _ hx _ iha ihb =>
    intro b hb e he
    simp only [List.mem_singleton] at he; subst he
    simp only [evalConst] at hb
    split at hb
    · rename_i hc
      simp only [Option.some.injEq] at hb; subst hb
      rcases hc with hc | hc
      · have := first x _ (iha false hc) (by simp)
        exact and3_l this
      · have := first y _ (ihb false hc) (by simp)
        exact and3_r this
    · split at hb
      · rename_i hc
        simp only [Option.some.injEq] at hb; subst hb
        have h1 := first x _ (iha true hc.1) (by simp)
        have h2 := first y _ (ihb true hc.2) (by simp)
        exact and3_b h1 h2
      · cases hb

theorem decides_const {σ : Type} {I : Interp σ} {k : Cond} {v : Bool} {s s' : σ} (h : Decides I k v s s') :
    evalConst k ≠ some (!v) := by
  obtain ⟨x, hx, hv⟩ := h
  intro hc
  have := evalConst_sound hx (!v) hc
  cases x with
  | nil => simp [firstOf] at hv
  | cons a x =>
    simp only [firstOf, List.headD_cons] at hv
    exact this a (List.mem_cons_self ..) (by simpa using hv)

/-- The interpretation where everything may happen. -/
def chaos : Interp Unit := ⟨fun _ _ _ _ => True, fun _ _ _ _ => True, fun _ _ _ _ => True, fun _ _ _ _ => True⟩

/-- A condition without a constant value can have both values. -/
theorem evalConst_complete (k : Cond) (b : Bool) (h : evalConst k ≠ some (!b)) : Eval chaos k () [some b] () := by
  have el : ∀ (f : Option Bool → Option Bool → Option Bool) u v w, f u v = w → Elementwise f [u] [v] [w] := by
    intro f u v w hw
    unfold Elementwise
    rw [if_neg (by simp)]
    refine ⟨by simp, ?_⟩
    intro i hi
    have : i = 0 := by simpa using hi
    subst this
    simp [hw]
  have some_of : ∀ k, (∀ b, evalConst k ≠ some (!b) → Eval chaos k () [some b] ()) → ∃ b, Eval chaos k () [some b] () := by
    intro k h
    cases hk : evalConst k with
    | none => exact ⟨true, h true (by simp [hk])⟩
    | some b => exact ⟨b, h b (by simp [hk])⟩
  induction k generalizing b with
  | tru => cases b with
    | true => exact .tru
    | false => simp [evalConst] at h
  | fls => cases b with
    | false => exact .fls
    | true => simp [evalConst] at h
  | paren c ih => exact .paren (ih b (by simpa [evalConst] using h))
  | atom r => exact .atom trivial
  | or a c iha ihc =>
    obtain ⟨va, ha⟩ := some_of a iha
    obtain ⟨vc, hc⟩ := some_of c ihc
    simp only [evalConst] at h
    cases b with
    | true =>
      by_cases h1 : evalConst a = some false
      · have : evalConst c ≠ some false := by intro h2; simp [h1, h2] at h
        exact .or ha (ihc true (by simpa using this)) (el _ _ _ _ (by cases va <;> rfl))
      · exact .or (iha true (by simpa using h1)) hc (el _ _ _ _ (by cases vc <;> rfl))
    | false =>
      have h1 : evalConst a ≠ some true := by intro h2; simp [h2] at h
      have h2 : evalConst c ≠ some true := by intro h2; simp [h2] at h
      exact .or (iha false (by simpa using h1)) (ihc false (by simpa using h2)) (el _ _ _ _ rfl)
  | and a c iha ihc =>
    obtain ⟨va, ha⟩ := some_of a iha
    obtain ⟨vc, hc⟩ := some_of c ihc
    simp only [evalConst] at h
    cases b with
    | false =>
      by_cases h1 : evalConst a = some true
      · have : evalConst c ≠ some true := by intro h2; simp [h1, h2] at h
        exact .and ha (ihc false (by simpa using this)) (el _ _ _ _ (by cases va <;> rfl))
      · exact .and (iha false (by simpa using h1)) hc (el _ _ _ _ (by cases vc <;> rfl))
    | true =>
      have h1 : evalConst a ≠ some false := by intro h2; simp [h2] at h
      have h2 : evalConst c ≠ some false := by intro h2; simp [h2] at h
      exact .and (iha true (by simpa using h1)) (ihc true (by simpa using h2)) (el _ _ _ _ rfl)
  | or2 a c iha ihc =>
    obtain ⟨va, ha⟩ := some_of a iha
    simp only [evalConst] at h
    cases b with
    | true =>
      by_cases h1 : evalConst a = some false
      · have : evalConst c ≠ some false := by intro h2; simp [h1, h2] at h
        have hc := ihc true (by simpa using this)
        cases va with
        | true => exact .or2Left ha rfl
        | false => exact .or2 ha (by simp [firstOf]) hc
      · exact .or2Left (iha true (by simpa using h1)) rfl
    | false =>
      have h1 : evalConst a ≠ some true := by intro h2; simp [h2] at h
      have h2 : evalConst c ≠ some true := by intro h2; simp [h2] at h
      exact .or2 (iha false (by simpa using h1)) (by simp [firstOf]) (ihc false (by simpa using h2))
  | and2 a c iha ihc =>
    obtain ⟨va, ha⟩ := some_of a iha
    simp only [evalConst] at h
    cases b with
    | false =>
      by_cases h1 : evalConst a = some true
      · have : evalConst c ≠ some true := by intro h2; simp [h1, h2] at h
        have hc := ihc false (by simpa using this)
        cases va with
        | false => exact .and2Left ha rfl
        | true => exact .and2 ha (by simp [firstOf]) hc
      · exact .and2Left (iha false (by simpa using h1)) rfl
    | true =>
      have h1 : evalConst a ≠ some false := by intro h2; simp [h2] at h
      have h2 : evalConst c ≠ some false := by intro h2; simp [h2] at h
      exact .and2 (iha true (by simpa using h1)) (by simp [firstOf]) (ihc true (by simpa using h2))

/-! ## Function names -/

theorem infix_cons_iff' {α} {l : List α} {a : α} {t : List α} : l <:+: a :: t ↔ l <+: a :: t ∨ l <:+: t :=
  List.infix_cons_iff

theorem afterLastColons_none {f : Str} (h : afterLastColons f = none) : ¬ (cs! "::") <:+: f := by
  induction f with
  | nil => intro h'; simp at h'
  | cons c cs ih =>
    simp only [afterLastColons] at h
    split at h
    · cases h
    · rename_i hn
      intro hi
      rcases infix_cons_iff'.1 hi with hp | hi
      · obtain ⟨t, ht⟩ := hp
        simp only [List.cons_append, List.nil_append, List.cons.injEq] at ht
        obtain ⟨rfl, rfl⟩ := ht
        simp at h
      · exact ih hn hi

theorem afterLastColons_some {f n : Str} (h : afterLastColons f = some n) :
    ∃ p, f = p ++ cs! "::" ++ n ∧ ¬ (cs! "::") <:+: (':' :: n) := by
  induction f with
  | nil => simp [afterLastColons] at h
  | cons c cs ih =>
    simp only [afterLastColons] at h
    split at h
    · rename_i r hr
      cases h
      obtain ⟨p, hp, hn⟩ := ih hr
      exact ⟨c :: p, by simp [hp], hn⟩
    · rename_i hn
      split at h
      · rename_i hc
        split at h
        · cases h
          subst hc
          exact ⟨[], by simp, afterLastColons_none hn⟩
        · cases h
      · cases h

theorem funName_lastName (f : Str) : LastName f (funName f) := by
  unfold funName
  cases h : afterLastColons f with
  | none => exact Or.inl ⟨rfl, afterLastColons_none h⟩
  | some n => exact Or.inr (afterLastColons_some h)

/-! ## Reachable blocks -/

/-- Blocks reachable from the entry in the graph of `F`. -/
inductive Rch (F : CfgSt) : Nat → Prop
  | zero : Rch F 0
  | step : Rch F i → j ∈ F.suc i → Rch F j

/-- A block that is reachable in the final graph, and that the builder knows to have an incoming
edge. -/
def Live (F st : CfgSt) (c : Nat) : Prop := Rch F c ∧ st.hasIncoming c = true

/-- The offset is outside of the text spanned by the ranges. -/
def OutOf (x : Nat) (rs : List Range) : Prop := (∀ r ∈ rs, x < r.start) ∨ (∀ r ∈ rs, r.stop ≤ x)

theorem live_edge {F st : CfgSt} (hI : Inv st) {c j : Nat} (hc : Rch F c) (hj : j ∈ st.suc c) (hF : ∀ i, st.suc i ⊆ F.suc i) :
    Live F st j :=
  ⟨.step hc (hF c hj), (hasIncoming_iff hI).2 (Or.inr ⟨c, hj⟩)⟩

theorem ifOpen_edges {st : CfgSt} {c : Nat} (hc : c < st.len) (k : Cond) :
    (evalConst k ≠ some false → st.len ∈ (st.ifOpen c k).suc c) ∧
    (evalConst k ≠ some true → st.len + 1 ∈ (st.ifOpen c k).suc c) := by
  unfold CfgSt.ifOpen
  constructor
  · intro h
    split
    · rw [suc_addPred, mem_suc_addEdge]; right; simp; omega
    · contradiction
    · rw [mem_suc_addEdge, mem_suc_addEdge]; left; right; simp; omega
  · intro h
    split
    · contradiction
    · rw [suc_addPred, mem_suc_addEdge]; right; simp; omega
    · rw [mem_suc_addEdge]; right; simp; omega

theorem closeBranch_edge {st : CfgSt} {last after : Nat} (hl : last < st.len) (ht : (st.trm last).ends = false)
    (hi : st.hasIncoming last = true) : after ∈ (st.closeBranch last after).suc last := by
  unfold CfgSt.closeBranch
  rw [if_pos ⟨ht, hi⟩, mem_suc_addEdge]
  right; simp; omega

theorem closeBranch_stm (st : CfgSt) (last after b : Nat) : (st.closeBranch last after).stm b = st.stm b := by
  unfold CfgSt.closeBranch
  split
  · rw [(Fr.addEdge (fun _ => False) _ last after).stm b (fun h => h)]
    simp only [CfgSt.setTerm, CfgSt.stm, blk_upd]; split <;> rfl
  · rfl

theorem ifEnd_stm (st : CfgSt) (c after b : Nat) : (st.ifEnd c after).stm b = st.stm b := by
  unfold CfgSt.ifEnd
  split
  · exact (Fr.addPred (fun _ => False) st after c).stm b (fun h => h)
  · rfl

theorem loopClose_stm (st : CfgSt) (last after b : Nat) : (st.loopClose last after).stm b = st.stm b := by
  unfold CfgSt.loopClose
  simp only
  split
  · show (CfgSt.addEdge _ _ _).stm b = _
    rw [(Fr.addEdge (fun _ => False) _ last after).stm b (fun h => h)]
    simp only [CfgSt.setTerm, CfgSt.stm, blk_upd]; split <;> rfl
  · rfl

theorem loopOpen_edges {st : CfgSt} {c : Nat} (hc : c < st.len) :
    st.len ∈ (st.loopOpen c).suc c ∧ st.len + 1 ∈ (st.loopOpen c).suc st.len ∧ st.len + 2 ∈ (st.loopOpen c).suc st.len := by
  have : ∀ i, (st.loopOpen c).suc i = ((((((st.newBlock.newBlock.newBlock).setTerm c .goto).addEdge c st.len).setTerm st.len .loop).addEdge
    st.len (st.len + 1)).addEdge st.len (st.len + 2)).suc i := fun _ => rfl
  simp only [this, mem_suc_addEdge, suc_setTerm]
  simp
  omega

theorem repeatOpen_edges {st : CfgSt} {c : Nat} (hc : c < st.len) :
    st.len ∈ (st.repeatOpen c).suc c ∧ st.len + 1 ∈ (st.repeatOpen c).suc st.len := by
  have : ∀ i, (st.repeatOpen c).suc i = ((((st.newBlock.newBlock).setTerm c .goto).addEdge c st.len).addEdge
    st.len (st.len + 1)).suc i := fun _ => rfl
  simp only [this, mem_suc_addEdge, suc_setTerm]
  simp
  omega

/-! ## Execution -/

/-- Everything a loop executes is executed in one of its iterations. -/
theorem inside_loop {σ : Type} {stop : List Str} {I : Interp σ} {L : Stmt} {s : σ} {l : List Stmt} :
    Inside stop I L s l → ∀ {r b}, IsLoop L r b → ∃ s1, Reaches stop I (bodyList b) s1 l
  | .loop hL he hr, _, _, hL' => by
    cases hL <;> cases hL' <;> exact ⟨_, hr⟩
  | .loopAgain hL _ _ _ h, _, _, hL' => inside_loop h hL'
  | .braced _, _, _, hL' => by cases hL'
  | .ifThen _ _, _, _, hL' => by cases hL'
  | .ifElseTrue _ _, _, _, hL' => by cases hL'
  | .ifElseFalse _ _, _, _, hL' => by cases hL'

theorem reaches_ne {σ : Type} {stop : List Str} {I : Interp σ} {ss : List Stmt} {s : σ} {l : List Stmt}
    (h : Reaches stop I ss s l) : ss ≠ [] := by
  cases h <;> simp


/-! ## Soundness -/

/-- Every reached point of the list `ss`, built from a live block, lies outside of the unreachable
blocks that were created for it; and if the list can complete, the last block is live. -/
def SoundList (stop : List Str) (ss : List Stmt) : Prop :=
  ∀ (F : CfgSt) lo hi c st, LaidSeq lo hi ss → ¬ BareReturn ss → Inv st → c < st.len → Live F st c →
    (st.trm c).ends = false →
    (∀ i, (buildStmts stop ss c st).1.suc i ⊆ F.suc i) →
    (∀ b, st.len ≤ b → b < (buildStmts stop ss c st).1.len → F.stm b = (buildStmts stop ss c st).1.stm b) →
    (∀ (σ : Type) (I : Interp σ) s s', ExecSeq stop I ss s .normal s' →
      Live F (buildStmts stop ss c st).1 (buildStmts stop ss c st).2 ∧
      ((buildStmts stop ss c st).1.trm (buildStmts stop ss c st).2).ends = false) ∧
    (∀ (σ : Type) (I : Interp σ) s l, Reaches stop I ss s l →
      ∃ q rest, l = q :: rest ∧ lo ≤ q.range.start ∧ q.range.start < hi ∧
        ∀ b, st.len ≤ b → b < (buildStmts stop ss c st).1.len → ¬ Rch F b → OutOf q.range.start (F.stm b))

def SoundStmt (stop : List Str) (x : Stmt) : Prop :=
  ∀ (F : CfgSt) c st, Laid x → ¬ BareReturn [x] → Inv st → c < st.len → Live F st c →
    (st.trm c).ends = false →
    (∀ i, (buildStmt stop x false c st).1.suc i ⊆ F.suc i) →
    (∀ b, st.len ≤ b → b < (buildStmt stop x false c st).1.len → b ≠ (buildStmt stop x false c st).2 →
      F.stm b = (buildStmt stop x false c st).1.stm b) →
    (∀ (σ : Type) (I : Interp σ) s s', Exec stop I x s .normal s' →
      Live F (buildStmt stop x false c st).1 (buildStmt stop x false c st).2 ∧
      ((buildStmt stop x false c st).1.trm (buildStmt stop x false c st).2).ends = false) ∧
    (∀ (σ : Type) (I : Interp σ) s l, Inside stop I x s l →
      ∃ q rest, l = q :: rest ∧ x.range.start < q.range.start ∧ q.range.start < x.range.stop ∧
        ∀ b, st.len ≤ b → b < (buildStmt stop x false c st).1.len → b ≠ (buildStmt stop x false c st).2 → ¬ Rch F b →
          OutOf q.range.start (F.stm b))

/-- How the rest of a list is built after its first statement. -/
theorem tail_facts {stop : List Str} {s : Stmt} {ss : List Stmt} {lo hi c : Nat} {st : CfgSt} (hl : LaidSeq lo hi (s :: ss))
    (hI : Inv st) (hc : c < st.len) :
    let p := buildStmt stop s false c st
    let q := buildStmts stop (s :: ss) c st
    p.1.len ≤ q.1.len ∧ (∀ i, p.1.suc i ⊆ q.1.suc i) ∧ (∀ b, b < p.1.len → b ≠ p.2 → q.1.stm b = p.1.stm b) ∧
    (∀ b, p.1.len ≤ b → ∀ r ∈ q.1.stm b, InReg s.range.stop hi r) ∧
    (∃ e, q.1.stm p.2 = p.1.stm p.2 ++ e ∧ ∀ r ∈ e, InReg s.range.stop hi r) := by
  intro p q
  have hll := hl
  simp only [LaidSeq] at hl
  obtain ⟨hB, -⟩ := (good stop).1 s c st hl.2.1 hI hc
  have hq : q = if (p.1.blk p.2).term.ends = true ∧ ss ≠ [] then (p.1.deadBlock p.2 (ss.map Stmt.range), p.1.blocks.length)
    else buildStmts stop ss p.2 p.1 := by
    simp only [q, buildStmts]; rfl
  rw [hq]
  split
  · obtain ⟨hst, hlen2, hstm, -, -, -⟩ := deadBlock_step (T := fun i => i = p.1.len) (J := fun _ => True) (lo := fun _ => s.range.stop) (hi := hi)
      hB.step.inv p.2 rfl (rest := ss.map Stmt.range) (by
        intro r hr
        obtain ⟨x, hx, rfl⟩ := List.mem_map.1 hr
        exact (laidSeq_mem hl.2.2 hx).1)
    refine ⟨hst.fr.len, hst.fr.suc, fun b hb _ => hst.fr.stm b (by show ¬ b = p.1.len; omega), ?_, ?_⟩
    · intro b hb r hr
      by_cases hbu : b = p.1.len
      · subst hbu
        have hr : r ∈ (p.1.deadBlock p.2 (ss.map Stmt.range)).stm p.1.len := hr
        rw [hstm] at hr
        obtain ⟨x, hx, rfl⟩ := List.mem_map.1 hr
        exact (laidSeq_mem hl.2.2 hx).1
      · have hr : r ∈ (p.1.deadBlock p.2 (ss.map Stmt.range)).stm b := hr
        rw [hst.fr.stm b hbu] at hr
        rw [(fresh_new hb).1] at hr
        cases hr
    · have : p.2 < p.1.len := hB.cur
      refine ⟨[], ?_, by simp⟩
      rw [List.append_nil]
      exact hst.fr.stm p.2 (by show ¬ p.2 = p.1.len; omega)
  · have hB2 := (good stop).2 ss s.range.stop hi p.2 p.1 hl.2.2 hB.step.inv hB.cur
    refine ⟨hB2.step.fr.len, hB2.step.fr.suc, ?_, ?_, ?_⟩
    · intro b hb hne
      exact hB2.step.fr.stm b (by rintro (h | h); exact hne h; omega)
    · intro b hb r hr
      exact stm_new hB2 hB.cur hb hr
    · obtain ⟨e, he, hr⟩ := hB2.step.stm p.2
      exact ⟨e, he, by simpa using hr⟩

theorem bare_mono {ss ss' : List Stmt} (h : BareReturn ss) (hs : ss ⊆ ss') : BareReturn ss' := by
  cases h with
  | here h => exact .here (hs h)
  | ifThen h h' => exact .ifThen (hs h) h'
  | ifElseT h h' => exact .ifElseT (hs h) h'
  | ifElseE h h' => exact .ifElseE (hs h) h'
  | loop h hL h' => exact .loop (hs h) hL h'

theorem sound_cons {stop : List Str} {x : Stmt} {ss : List Stmt} (hx : SoundStmt stop x) (hss : SoundList stop ss) :
    SoundList stop (x :: ss) := by
  intro F lo hi c st hl hbr hI hc hlive hend hF hstm
  have hll := hl
  simp only [LaidSeq] at hl
  have hle := laidSeq_le _ _ _ hl.2.2
  have hp := laid_pos x hl.2.1
  have hbr1 : ¬ BareReturn [x] := fun h => hbr (bare_mono h (by simp))
  have hbr2 : ¬ BareReturn ss := fun h => hbr (bare_mono h (by simp))
  obtain ⟨hB, hfresh⟩ := (good stop).1 x c st hl.2.1 hI hc
  obtain ⟨t1, t2, t3, t4, t5⟩ := tail_facts hll hI hc (stop := stop)
  have hq : buildStmts stop (x :: ss) c st = if ((buildStmt stop x false c st).1.blk (buildStmt stop x false c st).2).term.ends = true ∧ ss ≠ []
    then ((buildStmt stop x false c st).1.deadBlock (buildStmt stop x false c st).2 (ss.map Stmt.range), (buildStmt stop x false c st).1.blocks.length)
    else buildStmts stop ss (buildStmt stop x false c st).2 (buildStmt stop x false c st).1 := by
    simp only [buildStmts]
  have hX := hx F c st hl.2.1 hbr1 hI hc hlive hend
  generalize buildStmts stop (x :: ss) c st = q at *
  generalize buildStmt stop x false c st = p at *
  have hlen1 := hB.step.fr.len
  have hcur := hB.cur
  obtain ⟨hX1, hX2⟩ := hX (fun i => (t2 i).trans (hF i)) (by
    intro b hb hb' hne
    rw [hstm b hb (by omega), t3 b hb' hne])
  -- the rest of the list, when the first statement completes
  have hrest : ∀ (σ : Type) (I : Interp σ) s s', Exec stop I x s .normal s' → ss ≠ [] →
      Live F p.1 p.2 ∧ (p.1.trm p.2).ends = false ∧ q = buildStmts stop ss p.2 p.1 ∧
      ((∀ (σ : Type) (I : Interp σ) s s', ExecSeq stop I ss s .normal s' → Live F q.1 q.2 ∧ (q.1.trm q.2).ends = false) ∧
       (∀ (σ : Type) (I : Interp σ) s l, Reaches stop I ss s l →
        ∃ y rest, l = y :: rest ∧ x.range.stop ≤ y.range.start ∧ y.range.start < hi ∧
          ∀ b, p.1.len ≤ b → b < q.1.len → ¬ Rch F b → OutOf y.range.start (F.stm b))) := by
    intro σ I s s' he hne
    obtain ⟨hl1, he1⟩ := hX1 σ I s s' he
    have hqe : q = buildStmts stop ss p.2 p.1 := by
      rw [hq, if_neg]
      rintro ⟨h, -⟩
      have he1 : ((p.1.blk p.2).term).ends = false := he1
      simp [he1] at h
    refine ⟨hl1, he1, hqe, ?_⟩
    have := hss F x.range.stop hi p.2 p.1 hl.2.2 hbr2 hB.step.inv hcur hl1 he1 (by rw [← hqe]; exact hF)
      (by rw [← hqe]; intro b hb hb'; exact hstm b (by omega) hb')
    rw [← hqe] at this
    exact this
  constructor
  · intro σ I s s' h
    cases h with
    | abrupt _ h => exact absurd rfl h
    | cons h1 h2 =>
      by_cases hne : ss = []
      · subst hne
        have hqe : q = p := by rw [hq, if_neg (by simp)]; rfl
        rw [hqe]
        exact hX1 σ I _ _ h1
      · obtain ⟨-, -, -, h3, -⟩ := hrest σ I _ _ h1 hne
        exact h3 σ I _ _ h2
  · -- points in `x`, at the head or inside, versus every unreachable block
    have inX : ∀ z, x.range.start ≤ z → z < x.range.stop →
        (∀ b, st.len ≤ b → b < p.1.len → b ≠ p.2 → ¬ Rch F b → OutOf z (F.stm b)) →
        ∀ b, st.len ≤ b → b < q.1.len → ¬ Rch F b → OutOf z (F.stm b) := by
      intro z hz1 hz2 hin b hb hb' hr
      by_cases hbp : b < p.1.len
      · by_cases hbe : b = p.2
        · subst hbe
          rw [hstm _ hb hb']
          obtain ⟨e, he, hreg⟩ := t5
          have : p.1.stm p.2 = [] := by
            rcases hfresh with h | h
            · exact absurd h (by omega)
            · exact h.1
          rw [he, this, List.nil_append]
          exact Or.inl (fun r hr' => by have := (hreg r hr').1; omega)
        · exact hin b hb hbp hbe hr
      · rw [hstm _ hb hb']
        exact Or.inl (fun r hr' => by have := (t4 b (by omega) r hr').1; omega)
    intro σ I s l h
    cases h with
    | here =>
      refine ⟨x, ss, rfl, hl.1, by omega, ?_⟩
      apply inX _ (Nat.le_refl _) hp
      intro b hb hb' hne _
      rw [hstm b hb (by omega), t3 b hb' hne]
      exact Or.inl (fun r hr' => by have := (stm_new hB hc hb hr').1; omega)
    | inside h =>
      obtain ⟨y, rest, rfl, h1, h2, h3⟩ := hX2 σ I s l h
      exact ⟨y, rest, rfl, by omega, by omega, inX _ (by omega) h2 h3⟩
    | later h1 h2 =>
      obtain ⟨h3, -, -, -, h4⟩ := hrest σ I _ _ h1 (reaches_ne h2)
      obtain ⟨y, rest, rfl, h5, h6, h7⟩ := h4 σ I _ l h2
      refine ⟨y, rest, rfl, by omega, h6, ?_⟩
      intro b hb hb' hr
      by_cases hbp : b < p.1.len
      · by_cases hbe : b = p.2
        · subst hbe
          exact absurd h3.1 hr
        · rw [hstm b hb hb', t3 b hbp hbe]
          exact Or.inr (fun r hr' => by have := (stm_new hB hc hb hr').2.2; omega)
      · exact h7 b (by omega) hb' hr


theorem sound_nil {stop : List Str} : SoundList stop [] := by
  intro F lo hi c st _ _ _ _ hlive hend _ _
  exact ⟨fun _ _ _ _ _ => ⟨hlive, hend⟩, fun _ _ _ _ h => by cases h⟩

theorem buildStmt_leaf_len {stop : List Str} {x : Stmt} {c : Nat} {st : CfgSt} (hI : Inv st) (hc : c < st.len) (hl : Laid x)
    (h : ∀ r t, (∀ k, x ≠ .ifThen r k t) ∧ (∀ k e, x ≠ .ifElse r k t e) ∧ ¬ IsLoop x r t) :
    (buildStmt stop x false c st).1.len = st.len ∧ (buildStmt stop x false c st).2 = c := by
  have add : ∀ r, (st.addStatement c r).len = st.len := fun r => by simp
  have hp := laid_pos x hl
  cases x with
  | ifThen r k t => exact absurd rfl ((h r t).1 k)
  | ifElse r k t e => exact absurd rfl ((h r t).2.1 k e)
  | fors r b => exact absurd .fors (h r b).2.2
  | whiles r k b => exact absurd .whiles (h r b).2.2
  | repeats r b => exact absurd .repeats (h r b).2.2
  | brk r => simp only [buildStmt]; split; exact ⟨add _, rfl⟩; exact ⟨(buildBreak_step (lo := fun _ => 0) (hi := 0) hI).2.2, rfl⟩
  | nxt r => simp only [buildStmt]; split; exact ⟨add _, rfl⟩; exact ⟨(buildNext_step (lo := fun _ => 0) (hi := 0) hI).2.2, rfl⟩
  | ret r => simp only [buildStmt]; split; exact ⟨add _, by trivial⟩; exact ⟨(buildReturn_step (lo := fun _ => 0) (hi := 0) hI).2.2, rfl⟩
  | call r f =>
    simp only [buildStmt]; split; exact ⟨add _, rfl⟩
    exact ⟨(buildCall_step (r := r) (lo := fun _ => r.start) (hi := r.stop) hI hc ⟨Nat.le_refl _, hp, Nat.le_refl _⟩ stop f).2.2, rfl⟩
  | braced r ss => simp only [buildStmt]; exact ⟨add _, rfl⟩
  | other r => simp only [buildStmt]; exact ⟨add _, trivial⟩

theorem trm_addStatement (st : CfgSt) (c r i) : (st.addStatement c r).trm i = st.trm i := by
  simp only [CfgSt.addStatement, CfgSt.trm, blk_upd]; split <;> rfl

/-- Statements without blocks of their own: only the normal completion matters. -/
theorem sound_leaf {stop : List Str} {x : Stmt}
    (h : ∀ r t, (∀ k, x ≠ .ifThen r k t) ∧ (∀ k e, x ≠ .ifElse r k t e) ∧ ¬ IsLoop x r t)
    (hin : ∀ (σ : Type) (I : Interp σ) s l, Inside stop I x s l → Laid x → ∃ q rest, l = q :: rest ∧ x.range.start < q.range.start ∧
      q.range.start < x.range.stop)
    (hn : ∀ (σ : Type) (I : Interp σ) s s' c (st : CfgSt), st.hasIncoming c = true → (st.trm c).ends = false →
      ¬ BareReturn [x] → Exec stop I x s .normal s' → ((buildStmt stop x false c st).1.trm c).ends = false) :
    SoundStmt stop x := by
  intro F c st hl hbr hI hc hlive hend hF hstm
  obtain ⟨hlen, hcur⟩ := buildStmt_leaf_len (stop := stop) hI hc hl h
  obtain ⟨hB, -⟩ := (good stop).1 x c st hl hI hc
  constructor
  · intro σ I s s' he
    rw [hcur]
    exact ⟨⟨hlive.1, hasIncoming_mono hB.step.fr hlive.2⟩, hn σ I s s' c st hlive.2 hend hbr he⟩
  · intro σ I s l hi
    obtain ⟨q, rest, h1, h2, h3⟩ := hin σ I s l hi hl
    exact ⟨q, rest, h1, h2, h3, fun b hb hb' => by omega⟩

theorem reaches_pos {σ : Type} {stop : List Str} {I : Interp σ} :
    (∀ (x : Stmt) (s : σ) l, Laid x → Inside stop I x s l → ∃ q rest, l = q :: rest ∧ x.range.start < q.range.start ∧
      q.range.start < x.range.stop) ∧
    (∀ (ss : List Stmt) (s : σ) l lo hi, LaidSeq lo hi ss → Reaches stop I ss s l → ∃ q rest, l = q :: rest ∧ lo ≤ q.range.start ∧
      q.range.start < hi) := by
  have main := Stmt.both (P := fun x => ∀ (s : σ) l, Laid x → Inside stop I x s l → ∃ q rest, l = q :: rest ∧ x.range.start < q.range.start ∧
      q.range.start < x.range.stop)
    (PL := fun ss => ∀ (s : σ) l lo hi, LaidSeq lo hi ss → Reaches stop I ss s l → ∃ q rest, l = q :: rest ∧ lo ≤ q.range.start ∧
      q.range.start < hi)
  have loop : ∀ L r b, IsLoop L r b → (∀ (s : σ) l lo hi, LaidSeq lo hi (bodyList b) → Reaches stop I (bodyList b) s l →
      ∃ q rest, l = q :: rest ∧ lo ≤ q.range.start ∧ q.range.start < hi) → r.start < b.range.start → b.range.stop ≤ r.stop → Laid b →
      ∀ (s : σ) l, Inside stop I L s l → ∃ q rest, l = q :: rest ∧ r.start < q.range.start ∧ q.range.start < r.stop := by
    intro L r b hL ih h1 h2 h3 s l h
    obtain ⟨s1, hr⟩ := inside_loop h hL
    obtain ⟨q, rest, e, a, b⟩ := ih s1 l _ _ (laid_body h3) hr
    exact ⟨q, rest, e, by omega, by omega⟩
  apply main
  · intro s l lo hi _ h; cases h
  · intro x ss hx hss s l lo hi hl h
    simp only [LaidSeq] at hl
    have hle := laidSeq_le _ _ _ hl.2.2
    have hp := laid_pos x hl.2.1
    cases h with
    | here => exact ⟨x, ss, rfl, hl.1, by omega⟩
    | inside h =>
      obtain ⟨q, rest, e, a, b⟩ := hx s l hl.2.1 h
      exact ⟨q, rest, e, by omega, by omega⟩
    | later _ h =>
      obtain ⟨q, rest, e, a, b⟩ := hss _ l _ _ hl.2.2 h
      exact ⟨q, rest, e, by omega, by omega⟩
  · intro r s l _ h; cases h with
    | loop hL => cases hL
    | loopAgain hL => cases hL
  · intro r s l _ h; cases h with
    | loop hL => cases hL
    | loopAgain hL => cases hL
  · intro r s l _ h; cases h with
    | loop hL => cases hL
    | loopAgain hL => cases hL
  · intro r f s l _ h; cases h with
    | loop hL => cases hL
    | loopAgain hL => cases hL
  · intro r s l _ h; cases h with
    | loop hL => cases hL
    | loopAgain hL => cases hL
  · intro r ss ih s l hl h
    simp only [Laid] at hl
    cases h with
    | braced h =>
      obtain ⟨q, rest, e, a, b⟩ := ih s l _ _ hl h
      exact ⟨q, rest, e, a, b⟩
    | loop hL => cases hL
    | loopAgain hL => cases hL
  · intro r k t ih s l hl h
    simp only [Laid] at hl
    cases h with
    | ifThen _ h =>
      obtain ⟨q, rest, e, a, b⟩ := ih _ l _ _ (laid_body hl.2.2) h
      exact ⟨q, rest, e, by simp only [Stmt.range] at *; omega, by simp only [Stmt.range] at *; omega⟩
    | loop hL => cases hL
    | loopAgain hL => cases hL
  · intro r k t e' iht ihe s l hl h
    simp only [Laid] at hl
    have := laid_pos t hl.2.2.2.1
    have := laid_pos e' hl.2.2.2.2
    cases h with
    | ifElseTrue _ h =>
      obtain ⟨q, rest, e, a, b⟩ := iht _ l _ _ (laid_body hl.2.2.2.1) h
      exact ⟨q, rest, e, by simp only [Stmt.range] at *; omega, by simp only [Stmt.range] at *; omega⟩
    | ifElseFalse _ h =>
      obtain ⟨q, rest, e, a, b⟩ := ihe _ l _ _ (laid_body hl.2.2.2.2) h
      exact ⟨q, rest, e, by simp only [Stmt.range] at *; omega, by simp only [Stmt.range] at *; omega⟩
    | loop hL => cases hL
    | loopAgain hL => cases hL
  · intro r b ih s l hl h
    simp only [Laid] at hl
    exact loop _ r b .fors ih hl.1 hl.2.1 hl.2.2 s l h
  · intro r k b ih s l hl h
    simp only [Laid] at hl
    exact loop _ r b .whiles ih hl.1 hl.2.1 hl.2.2 s l h
  · intro r b ih s l hl h
    simp only [Laid] at hl
    exact loop _ r b .repeats ih hl.1 hl.2.1 hl.2.2 s l h

/-- A branch of an `if` that is built (not dead), from a live block. -/
theorem sound_branch {stop : List Str} {t : Stmt} (ht : SoundList stop (bodyList t)) (hl : Laid t)
    (hbr : ¬ BareReturn (bodyList t)) {F s : CfgSt} (hI : Inv s) {b after : Nat} (hb : b < s.len) (ha : after < s.len) (ha2 : 2 ≤ after)
    (hlive : Live F s b) (hend : (s.trm b).ends = false)
    (hF : ∀ i, (branchSt stop false t b after s).suc i ⊆ F.suc i)
    (hstm : ∀ b', s.len ≤ b' → b' < (branchSt stop false t b after s).len → F.stm b' = (branchSt stop false t b after s).stm b') :
    (∀ (σ : Type) (I : Interp σ) x x', ExecSeq stop I (bodyList t) x .normal x' → Live F (branchSt stop false t b after s) after) ∧
    (∀ (σ : Type) (I : Interp σ) x l, Reaches stop I (bodyList t) x l →
      ∃ q rest, l = q :: rest ∧ t.range.start ≤ q.range.start ∧ q.range.start < t.range.stop ∧
        ∀ b', s.len ≤ b' → b' < (branchSt stop false t b after s).len → ¬ Rch F b' → OutOf q.range.start (F.stm b')) := by
  have hB := (good stop).2 (bodyList t) _ _ b s (laid_body hl) hI hb
  have hlen := hB.step.fr.len
  have hst : Step (fun i => i = (buildStmts stop (bodyList t) b s).2) (fun _ => True) (fun _ => 0) 0 (buildStmts stop (bodyList t) b s).1
      (branchSt stop false t b after s) := by
    simp only [branchSt, Bool.false_eq_true, if_false]
    exact .closeBranch hB.step.inv rfl (by omega) ha2 trivial
  have hstm2 : ∀ b', (branchSt stop false t b after s).stm b' = (buildStmts stop (bodyList t) b s).1.stm b' := by
    intro b'
    simp only [branchSt, Bool.false_eq_true, if_false]
    exact closeBranch_stm ..
  have hlen2 : (branchSt stop false t b after s).len = (buildStmts stop (bodyList t) b s).1.len := by
    simp only [branchSt, Bool.false_eq_true, if_false]
    exact len_closeBranch ..
  obtain ⟨h1, h2⟩ := ht F _ _ b s (laid_body hl) hbr hI hb hlive hend (fun i => (hst.fr.suc i).trans (hF i)) (by
    intro b' h h'
    rw [← hstm2]; exact hstm b' h (by omega))
  constructor
  · intro σ I x x' h
    obtain ⟨h3, h4⟩ := h1 σ I x x' h
    refine live_edge hst.inv h3.1 ?_ hF
    simp only [branchSt, Bool.false_eq_true, if_false]
    exact closeBranch_edge hB.cur h4 h3.2
  · intro σ I x l h
    obtain ⟨q, rest, e, h3, h4, h5⟩ := h2 σ I x l h
    exact ⟨q, rest, e, h3, h4, fun b' hb hb' => h5 b' hb (by omega)⟩

theorem exec_ifThen_inv {σ : Type} {stop : List Str} {I : Interp σ} {r k t} {s s' : σ} {o : Outcome}
    (h : Exec stop I (.ifThen r k t) s o s') : o = .normal →
    (∃ s1, Decides I k true s s1 ∧ ExecSeq stop I (bodyList t) s1 .normal s') ∨ Decides I k false s s' := by
  cases h with
  | ifThenTrue hd hs => rintro rfl; exact Or.inl ⟨_, hd, hs⟩
  | ifThenFalse hd => intro _; exact Or.inr hd
  | ifThenFails _ h => intro h'; exact absurd h' h
  | loopLeave hL => cases hL
  | loopEnds hL => cases hL
  | loopAgain hL => cases hL
  | loopFails hL => cases hL

theorem exec_ifElse_inv {σ : Type} {stop : List Str} {I : Interp σ} {r k t e} {s s' : σ} {o : Outcome}
    (h : Exec stop I (.ifElse r k t e) s o s') : o = .normal →
    (∃ s1, Decides I k true s s1 ∧ ExecSeq stop I (bodyList t) s1 .normal s') ∨
    (∃ s1, Decides I k false s s1 ∧ ExecSeq stop I (bodyList e) s1 .normal s') := by
  cases h with
  | ifElseTrue hd hs => rintro rfl; exact Or.inl ⟨_, hd, hs⟩
  | ifElseFalse hd hs => rintro rfl; exact Or.inr ⟨_, hd, hs⟩
  | ifElseFails _ h => intro h'; exact absurd h' h
  | loopLeave hL => cases hL
  | loopEnds hL => cases hL
  | loopAgain hL => cases hL
  | loopFails hL => cases hL

theorem exec_brk_inv {σ : Type} {stop : List Str} {I : Interp σ} {r} {s s' : σ} {o : Outcome}
    (h : Exec stop I (.brk r) s o s') : o = .brk := by
  cases h with
  | brk => rfl
  | loopLeave hL => cases hL
  | loopEnds hL => cases hL
  | loopAgain hL => cases hL
  | loopFails hL => cases hL

theorem exec_nxt_inv {σ : Type} {stop : List Str} {I : Interp σ} {r} {s s' : σ} {o : Outcome}
    (h : Exec stop I (.nxt r) s o s') : o = .nxt := by
  cases h with
  | nxt => rfl
  | loopLeave hL => cases hL
  | loopEnds hL => cases hL
  | loopAgain hL => cases hL
  | loopFails hL => cases hL

theorem exec_call_inv {σ : Type} {stop : List Str} {I : Interp σ} {r f} {s s' : σ} {o : Outcome}
    (h : Exec stop I (.call r f) s o s') : EndingCall stop f → o ≠ .normal := by
  cases h with
  | call _ h => exact h
  | loopLeave hL => cases hL
  | loopEnds hL => cases hL
  | loopAgain hL => cases hL
  | loopFails hL => cases hL

theorem sound_ifThen {stop : List Str} {r : Range} {k : Cond} {t : Stmt} (ht : SoundList stop (bodyList t)) :
    SoundStmt stop (.ifThen r k t) := by
  intro F c st hl hbr hI hc hlive hend hF hstm
  rw [buildStmt_ifThen stop hlive.2] at hF hstm ⊢
  have hll := hl
  simp only [Laid] at hl
  have htp := laid_pos t hl.2.2
  obtain ⟨a, b, c', d, e, f, -, g1, g2, g3⟩ := ifThen_stages ((good stop).2 (bodyList t)) hll hI hc
  simp only at hF hstm ⊢
  have two := hI.two
  have hbr' : ¬ BareReturn (bodyList t) := fun h => hbr (.ifThen (List.mem_singleton.2 rfl) h)
  have hsuc1 : ∀ i, (st.ifOpen c k).suc i ⊆ F.suc i := fun i => ((b.trans (c'.trans d)).fr.suc i).trans (hF i)
  have hsuc2 := fun i => ((c'.trans d).fr.suc i).trans (hF i)
  have hsuc3 := fun i => (d.fr.suc i).trans (hF i)
  obtain ⟨ed1, ed2⟩ := ifOpen_edges hc k
  have hb : evalConst k ≠ some false → _ := fun hk => sound_branch ht hl.2.2 hbr' (F := F) a.inv (b := st.len) (after := st.len + 2) (by omega) (by omega) (by omega)
    (live_edge a.inv hlive.1 (ed1 hk) hsuc1) (by rw [g1.2]; rfl)
  have hdec : evalConst k ≠ some false → (evalConst k = some false : Bool) = false := by intro h; simp [h]
  have hlen4 : ((((branchSt stop (evalConst k = some false) t st.len (st.len + 2) (st.ifOpen c k)).setTerm (st.len + 1) .goto).addEdge
        (st.len + 1) (st.len + 2)).ifEnd c (st.len + 2)).len = (branchSt stop (evalConst k = some false) t st.len (st.len + 2) (st.ifOpen c k)).len := by
    rw [len_ifEnd, len_addEdge, len_setTerm]
  have hstm4 : ∀ i, ((((branchSt stop (evalConst k = some false) t st.len (st.len + 2) (st.ifOpen c k)).setTerm (st.len + 1) .goto).addEdge
        (st.len + 1) (st.len + 2)).ifEnd c (st.len + 2)).stm i = (branchSt stop (evalConst k = some false) t st.len (st.len + 2) (st.ifOpen c k)).stm i := by
    intro i
    rw [ifEnd_stm, (Fr.addEdge (fun _ => False) _ _ _).stm _ (fun h => h)]
    simp only [CfgSt.setTerm, CfgSt.stm, blk_upd]
    split <;> rfl
  rw [hlen4] at hstm ⊢
  have hthen : evalConst k ≠ some false →
      (∀ (σ : Type) (I : Interp σ) s s', ExecSeq stop I (bodyList t) s .normal s' →
        Live F (branchSt stop (evalConst k = some false) t st.len (st.len + 2) (st.ifOpen c k)) (st.len + 2)) ∧
      (∀ (σ : Type) (I : Interp σ) s l, Reaches stop I (bodyList t) s l →
        ∃ q rest, l = q :: rest ∧ t.range.start ≤ q.range.start ∧ q.range.start < t.range.stop ∧
          ∀ b', (st.ifOpen c k).len ≤ b' → b' < (branchSt stop (evalConst k = some false) t st.len (st.len + 2) (st.ifOpen c k)).len →
            ¬ Rch F b' → OutOf q.range.start (F.stm b')) := by
    intro hk
    have := hb hk
    rw [hdec hk] at hstm hsuc2 hstm4 ⊢
    exact this hsuc2 (fun b' h h' => (hstm b' (by omega) h' (by omega)).trans (hstm4 b'))
  constructor
  · intro σ I s s' he
    refine ⟨?_, by rw [g3.2]; rfl⟩
    rcases exec_ifThen_inv he rfl with ⟨s1, hd, hs⟩ | hd
    · have hk : evalConst k ≠ some false := decides_const hd
      have := (hthen hk).1 σ I _ _ hs
      exact ⟨this.1, hasIncoming_mono (c'.trans d).fr this.2⟩
    · have hk : evalConst k ≠ some true := decides_const hd
      have hl1 : Live F (st.ifOpen c k) (st.len + 1) := live_edge a.inv hlive.1 (ed2 hk) hsuc1
      have : Live F (((branchSt stop (evalConst k = some false) t st.len (st.len + 2) (st.ifOpen c k)).setTerm (st.len + 1) .goto).addEdge
        (st.len + 1) (st.len + 2)) (st.len + 2) := by
        refine live_edge c'.inv hl1.1 ?_ hsuc3
        rw [mem_suc_addEdge]; right
        have := b.fr.len
        refine ⟨rfl, rfl, ?_⟩
        rw [len_setTerm]; omega
      exact ⟨this.1, hasIncoming_mono d.fr this.2⟩
  · intro σ I s l hin
    cases hin with
    | ifThen hd hr =>
      have hk : evalConst k ≠ some false := decides_const hd
      obtain ⟨q, rest, h1, h2, h3, h4⟩ := (hthen hk).2 σ I _ l hr
      refine ⟨q, rest, h1, Nat.lt_of_lt_of_le hl.1 h2, Nat.lt_of_lt_of_le h3 hl.2.1, ?_⟩
      intro b' hb hb' hne hn
      by_cases h0 : b' = st.len
      · subst h0
        exact absurd (live_edge a.inv hlive.1 (ed1 hk) hsuc1).1 hn
      · by_cases h1' : b' = st.len + 1
        · subst h1'
          have : F.stm (st.len + 1) = [] := by
            rw [hstm _ hb hb' hne, hstm4]; exact g2.1
          rw [this]; exact Or.inl (by simp)
        · exact h4 b' (by omega) hb' hn
    | loop hL => cases hL
    | loopAgain hL => cases hL

theorem sound_ifElse {stop : List Str} {r : Range} {k : Cond} {t e : Stmt} (ht : SoundList stop (bodyList t))
    (he : SoundList stop (bodyList e)) : SoundStmt stop (.ifElse r k t e) := by
  intro F c st hl hbr hI hc hlive hend hF hstm
  rw [buildStmt_ifElse stop hlive.2] at hF hstm ⊢
  have hll := hl
  simp only [Laid] at hl
  have htp := laid_pos t hl.2.2.2.1
  have hep := laid_pos e hl.2.2.2.2
  obtain ⟨a, b, c', d, e', f, -, g1, g2, g3⟩ := ifElse_stages ((good stop).2 (bodyList t)) ((good stop).2 (bodyList e)) hll hI hc
  simp only at hF hstm ⊢
  have two := hI.two
  have hbrt : ¬ BareReturn (bodyList t) := fun h => hbr (.ifElseT (List.mem_singleton.2 rfl) h)
  have hbre : ¬ BareReturn (bodyList e) := fun h => hbr (.ifElseE (List.mem_singleton.2 rfl) h)
  have hsuc1 : ∀ i, (st.ifOpen c k).suc i ⊆ F.suc i := fun i => ((b.trans (c'.trans d)).fr.suc i).trans (hF i)
  have hsuc2 := fun i => ((c'.trans d).fr.suc i).trans (hF i)
  have hsuc3 := fun i => (d.fr.suc i).trans (hF i)
  obtain ⟨ed1, ed2⟩ := ifOpen_edges hc k
  rw [len_ifEnd] at hstm ⊢
  have b1 := Step.branchSt ((good stop).2 (bodyList t)) hl.2.2.2.1 a.inv (evalConst k = some false) (b := st.len) (after := st.len + 2)
    (lo := t.range.start) (hi := t.range.stop) (by omega) (by omega) (by omega) (Nat.le_refl _) (Nat.le_refl _)
  have b2 := Step.branchSt ((good stop).2 (bodyList e)) hl.2.2.2.2 b.inv (evalConst k = some true) (b := st.len + 1) (after := st.len + 2)
    (lo := e.range.start) (hi := e.range.stop) (by have := b.fr.len; omega) (by have := b.fr.len; omega) (by omega) (Nat.le_refl _) (Nat.le_refl _)
  have hst4 := fun i => ifEnd_stm (branchSt stop (evalConst k = some true) e (st.len + 1) (st.len + 2)
        (branchSt stop (evalConst k = some false) t st.len (st.len + 2) (st.ifOpen c k))) c (st.len + 2) i
  have hin1 : evalConst k ≠ some false → Live F (st.ifOpen c k) st.len := fun hk => live_edge a.inv hlive.1 (ed1 hk) hsuc1
  have hin2 : evalConst k ≠ some true → Live F (st.ifOpen c k) (st.len + 1) := fun hk => live_edge a.inv hlive.1 (ed2 hk) hsuc1
  have hdec1 : evalConst k ≠ some false → (evalConst k = some false : Bool) = false := by intro h; simp [h]
  have hdec2 : evalConst k ≠ some true → (evalConst k = some true : Bool) = false := by intro h; simp [h]
  have hst1 : ∀ i, st.len ≤ i → (st.ifOpen c k).stm i = [] := by
    intro i hi
    have f1 : Fr (fun i => i = c) st (st.ifOpen c k) :=
      (Step.ifOpen (T := fun i => i = c) (J := fun _ => True) (lo := fun _ => 0) (hi := 0) hI k rfl ⟨trivial, trivial⟩).fr
    exact (fresh_keep f1 (i := i) (by show ¬ i = c; omega) (fresh_new hi)).1
  -- the two branches
  have hthen : evalConst k ≠ some false → _ := fun hk => sound_branch ht hl.2.2.2.1 hbrt (F := F) a.inv (b := st.len) (after := st.len + 2) (by omega) (by omega) (by omega)
    (hin1 hk) (by rw [g1.2]; rfl)
  have helse : evalConst k ≠ some true → _ := fun hk => sound_branch he hl.2.2.2.2 hbre (F := F) b.inv (b := st.len + 1) (after := st.len + 2)
    (by have := b.fr.len; omega) (by have := b.fr.len; omega) (by omega)
    ⟨(hin2 hk).1, hasIncoming_mono b.fr (hin2 hk).2⟩ (by rw [g2.2]; rfl)
  -- what was built for each branch
  generalize hst2d : branchSt stop (evalConst k = some false) t st.len (st.len + 2) (st.ifOpen c k) = st2 at *
  generalize hst3d : branchSt stop (evalConst k = some true) e (st.len + 1) (st.len + 2) st2 = st3 at *
  have hlen1 := b.fr.len
  have hlen2 := c'.fr.len
  have reg1 : ∀ i, st.len ≤ i → ∀ q ∈ st2.stm i, InReg t.range.start t.range.stop q := by
    intro i hi q hq
    obtain ⟨x, hx, hr⟩ := b1.1.stm i
    rw [hx, hst1 i hi, List.nil_append] at hq
    exact hr q hq
  have keep : ∀ i, i < st2.len → i ≠ st.len + 1 → st3.stm i = st2.stm i :=
    fun i hi hne => b2.1.fr.stm i (by rintro (h | h); exact hne h; omega)
  have reg2 : ∀ i, (i = st.len + 1 ∨ st2.len ≤ i) → ∀ q ∈ st3.stm i, InReg e.range.start e.range.stop q := by
    intro i hi q hq
    obtain ⟨x, hx, hr⟩ := b2.1.stm i
    have : st2.stm i = [] := by
      rcases hi with rfl | hi
      · exact g2.1
      · exact (fresh_new hi).1
    rw [hx, this, List.nil_append] at hq
    exact hr q hq
  have hthen' : evalConst k ≠ some false → _ := fun hk => by
    have h2 := hst2d
    rw [hdec1 hk] at h2
    have := hthen hk
    rw [h2] at this
    exact this hsuc2 (by
      intro b' h h'
      rw [hstm b' (by omega) (by omega) (by omega), hst4, keep b' h' (by omega)])
  have helse' : evalConst k ≠ some true → _ := fun hk => by
    have h2 := hst3d
    rw [hdec2 hk] at h2
    have := helse hk
    rw [h2] at this
    exact this hsuc3 (by
      intro b' h h'
      rw [hstm b' (by omega) (by omega) (by omega), hst4])
  constructor
  · intro σ I s s' hx
    refine ⟨?_, by rw [g3.2]; rfl⟩
    rcases exec_ifElse_inv hx rfl with ⟨s1, hd, hs⟩ | ⟨s1, hd, hs⟩
    · have hk : evalConst k ≠ some false := decides_const hd
      have := (hthen' hk).1 σ I _ _ hs
      exact ⟨this.1, hasIncoming_mono (c'.trans d).fr this.2⟩
    · have hk : evalConst k ≠ some true := decides_const hd
      have := (helse' hk).1 σ I _ _ hs
      exact ⟨this.1, hasIncoming_mono d.fr this.2⟩
  · intro σ I s l hin
    cases hin with
    | ifElseTrue hd hr =>
      have hk : evalConst k ≠ some false := decides_const hd
      obtain ⟨q, rest, h1, h2, h3, h4⟩ := (hthen' hk).2 σ I _ l hr
      refine ⟨q, rest, h1, Nat.lt_of_lt_of_le hl.1 h2, by show q.range.start < r.stop; omega, ?_⟩
      intro b' hb hb' hne hn
      by_cases h0 : b' = st.len
      · subst h0
        exact absurd (hin1 hk).1 hn
      · by_cases h1' : b' = st.len + 1 ∨ st2.len ≤ b'
        · rw [hstm b' hb hb' hne, hst4]
          exact Or.inl (fun r hr' => by have := (reg2 b' h1' r hr').1; omega)
        · exact h4 b' (by omega) (by omega) hn
    | ifElseFalse hd hr =>
      have hk : evalConst k ≠ some true := decides_const hd
      obtain ⟨q, rest, h1, h2, h3, h4⟩ := (helse' hk).2 σ I _ l hr
      refine ⟨q, rest, h1, by show r.start < _; omega, by show q.range.start < r.stop; omega, ?_⟩
      intro b' hb hb' hne hn
      by_cases h0 : b' = st.len + 1
      · subst h0
        exact absurd (hin2 hk).1 hn
      · by_cases h1' : b' < st2.len
        · rw [hstm b' hb hb' hne, hst4, keep b' h1' h0]
          exact Or.inr (fun r hr' => by have := (reg1 b' hb r hr').2.2; omega)
        · exact h4 b' (by omega) (by omega) hn
    | loop hL => cases hL
    | loopAgain hL => cases hL

theorem sound_loop {stop : List Str} {L : Stmt} {r : Range} {b : Stmt} (hL : IsLoop L r b) (hb : SoundList stop (bodyList b))
    (hr : L.range = r) (hlaid : Laid L → r.start < b.range.start ∧ b.range.stop ≤ r.stop ∧ Laid b)
    (hbuild : ∀ c st, st.hasIncoming c = true → buildStmt stop L false c st =
      ((buildStmts stop (bodyList b) (st.len + 1) (st.loopOpen c)).1.loopClose
        (buildStmts stop (bodyList b) (st.len + 1) (st.loopOpen c)).2 st.len, st.len + 2)) : SoundStmt stop L := by
  intro F c st hl hbr hI hc hlive hend hF hstm
  rw [hbuild _ _ hlive.2] at hF hstm ⊢
  obtain ⟨l1, l2, l3⟩ := hlaid hl
  obtain ⟨a, b', c', e, f, g1, g2⟩ := loop_stages ((good stop).2 (bodyList b)) l1 l2 l3 hI hc
  simp only at hF hstm ⊢
  have hbr' : ¬ BareReturn (bodyList b) := fun h => hbr (.loop (List.mem_singleton.2 rfl) hL h)
  obtain ⟨e1, e2, e3⟩ := loopOpen_edges hc (st := st)
  have hsuc1 : ∀ i, (st.loopOpen c).suc i ⊆ F.suc i := fun i => ((b'.trans c').fr.suc i).trans (hF i)
  have hsuc2 := fun i => (c'.fr.suc i).trans (hF i)
  have v1 : Live F (st.loopOpen c) st.len := live_edge a.inv hlive.1 e1 hsuc1
  have v2 : Live F (st.loopOpen c) (st.len + 1) := live_edge a.inv v1.1 e2 hsuc1
  have v3 : Live F (st.loopOpen c) (st.len + 2) := live_edge a.inv v1.1 e3 hsuc1
  rw [len_loopClose] at hstm ⊢
  obtain ⟨-, s2⟩ := hb F _ _ (st.len + 1) (st.loopOpen c) (laid_body l3) hbr' a.inv (by omega) v2 (by rw [g1.2]; rfl) hsuc2 (by
    intro i hi hi'
    rw [hstm i (by omega) hi' (by omega), loopClose_stm])
  constructor
  · intro σ I s s' _
    exact ⟨⟨v3.1, hasIncoming_mono (b'.trans c').fr v3.2⟩, by rw [g2.2]; rfl⟩
  · intro σ I s l hin
    obtain ⟨s1, hre⟩ := inside_loop hin hL
    obtain ⟨q, rest, h1, h2, h3, h4⟩ := s2 σ I s1 l hre
    rw [hr]
    refine ⟨q, rest, h1, by omega, by omega, ?_⟩
    intro i hi hi' hne hn
    by_cases i0 : i = st.len
    · subst i0; exact absurd v1.1 hn
    · by_cases i1 : i = st.len + 1
      · subst i1; exact absurd v2.1 hn
      · exact h4 i (by omega) hi' hn

theorem sound_repeat {stop : List Str} {r : Range} {b : Stmt} (hb : SoundList stop (bodyList b)) :
    SoundStmt stop (.repeats r b) := by
  intro F c st hl hbr hI hc hlive hend hF hstm
  rw [buildStmt_repeats stop hlive.2] at hF hstm ⊢
  simp only [Laid] at hl
  obtain ⟨l1, l2, l3⟩ := hl
  obtain ⟨a, b', c', e, f, g1, g2⟩ := repeat_stages ((good stop).2 (bodyList b)) l1 l2 l3 hI hc
  simp only at hF hstm ⊢
  have hbr' : ¬ BareReturn (bodyList b) := fun h => hbr (.loop (List.mem_singleton.2 rfl) .repeats h)
  obtain ⟨e1, e3⟩ := repeatOpen_edges hc (st := st)
  have hsuc1 : ∀ i, (st.repeatOpen c).suc i ⊆ F.suc i := fun i => ((b'.trans c').fr.suc i).trans (hF i)
  have hsuc2 := fun i => (c'.fr.suc i).trans (hF i)
  have v1 : Live F (st.repeatOpen c) st.len := live_edge a.inv hlive.1 e1 hsuc1
  have v3 : Live F (st.repeatOpen c) (st.len + 1) := live_edge a.inv v1.1 e3 hsuc1
  rw [len_loopClose] at hstm ⊢
  obtain ⟨-, s2⟩ := hb F _ _ st.len (st.repeatOpen c) (laid_body l3) hbr' a.inv (by omega) v1 (by rw [g1.2]; rfl) hsuc2 (by
    intro i hi hi'
    rw [hstm i (by omega) hi' (by omega), loopClose_stm])
  constructor
  · intro σ I s s' _
    exact ⟨⟨v3.1, hasIncoming_mono (b'.trans c').fr v3.2⟩, by rw [g2.2]; rfl⟩
  · intro σ I s l hin
    obtain ⟨s1, hre⟩ := inside_loop hin .repeats
    obtain ⟨q, rest, h1, h2, h3, h4⟩ := s2 σ I s1 l hre
    refine ⟨q, rest, h1, by show r.start < _; omega, by show _ < r.stop; omega, ?_⟩
    intro i hi hi' hne hn
    by_cases i0 : i = st.len
    · subst i0; exact absurd v1.1 hn
    · exact h4 i (by omega) hi' hn

theorem sound (stop : List Str) : (∀ x, SoundStmt stop x) ∧ (∀ ss, SoundList stop ss) := by
  have inn : ∀ x, ∀ (σ : Type) (I : Interp σ) s l, Inside stop I x s l → Laid x → ∃ q rest, l = q :: rest ∧ x.range.start < q.range.start ∧
      q.range.start < x.range.stop := fun x σ I s l h hl => reaches_pos.1 x s l hl h
  apply Stmt.both
  · exact sound_nil
  · intro s ss; exact sound_cons
  · intro r
    refine sound_leaf (fun _ _ => ⟨by simp, by simp, by intro h; cases h⟩) (inn _) ?_
    intro σ I s s' c st _ _ _ h
    cases exec_brk_inv h
  · intro r
    refine sound_leaf (fun _ _ => ⟨by simp, by simp, by intro h; cases h⟩) (inn _) ?_
    intro σ I s s' c st _ _ _ h
    cases exec_nxt_inv h
  · intro r
    refine sound_leaf (fun _ _ => ⟨by simp, by simp, by intro h; cases h⟩) (inn _) ?_
    intro σ I s s' c st _ _ hb h
    exact absurd (.here (List.mem_singleton.2 rfl)) hb
  · intro r f
    refine sound_leaf (fun _ _ => ⟨by simp, by simp, by intro h; cases h⟩) (inn _) ?_
    intro σ I s s' c st hin hend _ h
    have hne : ¬ EndingCall stop f := fun he => exec_call_inv h he rfl
    have hn : ¬ (funName f = cs! "return" ∨ funName f = cs! "break" ∨ funName f = cs! "next" ∨ funName f ∈ stop) :=
      fun h => hne ⟨_, funName_lastName f, h⟩
    simp only [not_or] at hn
    simp only [buildStmt, hin, Bool.true_eq_false, if_false, CfgSt.buildCall, hn]
    rw [trm_addStatement]; exact hend
  · intro r
    refine sound_leaf (fun _ _ => ⟨by simp, by simp, by intro h; cases h⟩) (inn _) ?_
    intro σ I s s' c st hin hend _ h
    simp only [buildStmt]
    rw [trm_addStatement]; exact hend
  · intro r ss _
    refine sound_leaf (fun _ _ => ⟨by simp, by simp, by intro h; cases h⟩) (inn _) ?_
    intro σ I s s' c st hin hend _ h
    simp only [buildStmt]
    rw [if_neg (by simp), trm_addStatement]; exact hend
  · intro r k t; exact sound_ifThen
  · intro r k t e; exact sound_ifElse
  · intro r b h; exact sound_loop .fors h rfl (by simp only [Laid]; exact id) (fun c st => buildStmt_fors stop)
  · intro r k b h; exact sound_loop .whiles h rfl (by simp only [Laid]; exact id) (fun c st => buildStmt_whiles stop)
  · intro r b h; exact sound_repeat h

end Jarl

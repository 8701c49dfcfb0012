import Verif.Lemmas.RTogether
/-!
# A weight of programs that fixes lower
-/
namespace Jarl
open Spec

/-- Names that fixes replace by others. -/
def heavyNames : List Str :=
  [cs! "apply", cs! "sapply", cs! "vapply", cs! "map_dbl", cs! "map_int", cs! "do.call", cs! "grep", cs! "seq", cs! "expect_equal", cs! "expect_identical", cs! "T", cs! "F"]

def nameWeight (s : Str) : Nat := if s ∈ heavyNames then 2 else if s = cs! "isFALSE" then 3 else if s = cs! "which" then 8 else 1

/-- `.5` is heavier than `0.5`. -/
def atomWeight (k : AKind) (s : Str) : Nat :=
  match k with
  | .id => nameWeight s
  | .ns .. => nameWeight s
  | .double => if s.head? = some '.' then 2 else 1
  | .complex => if s.head? = some '.' then 2 else 1
  | _ => 1

/-- The assignment operator that is asked for. -/
class Want where
  op : Op

variable [Want]

def opWeight : Op → Nat
  | .eq2 => 5 | .ne => 5 | .special _ => 5 | .colon => 3 | .rassign => 2
  | .eq => if Want.op = .assign then 2 else 1
  | .assign => if Want.op = .assign then 1 else 2
  | _ => 1

/-- The price of a call of `all.equal` that is a condition. -/
def bare (e : Node) : Nat := if calls (cs! "all.equal") e = true then 4 else 0

/-- The functions whose arguments count twice. -/
def doubleNames : List Str := [cs! "sample", cs! "any", cs! "all", cs! "length"]

/-- The functions of `fixed_regex`. -/
def regexNames : List Str := [cs! "grep", cs! "gsub", cs! "sub", cs! "regexpr", cs! "gregexpr", cs! "regexec", cs! "grepl"]

def fixedPos (name : Str) : Nat := if name ∈ [cs! "grep", cs! "gsub", cs! "sub"] then 5 else 4

/-- `fixed = TRUE` is given. -/
def fixedTrue (name : Str) (args : Node) : Bool := match valueBy (items args) (cs! "fixed") (fixedPos name) with | some v => textIs (cs! "TRUE") v | none => false

/-- The price of a call of such a function without it. -/
def regexPrice (f : Node) (args : Node) : Nat := if fnName f ∈ regexNames ∧ fixedTrue (fnName f) args = false then 6 else 0

/-- The function that a call is a call of, for the rules. -/
def callee (f : Node) : Str := if textIs (cs! "any") f then cs! "any" else if textIs (cs! "all") f then cs! "all" else fnName f

/-- The weight. The arguments of `sample` and some others count twice. -/
def weight : Node → Nat
  | .atom _ k s => atomWeight k s
  | .paren _ e _ => weight e + 2
  | .braces _ ss _ => weight ss + 2
  | .un _ _ e => weight e + 1 + bare e
  | .bin l _ o r => weight l + opWeight o + weight r
  | .ext l _ _ _ k s => weight l + 1 + atomWeight k s
  | .call f _ b args _ => weight f + 2 + weight args + (if b = .par ∧ callee f ∈ doubleNames then weight args else 0) + (if b = .par then regexPrice f args else 0)
  | .func _ _ _ params _ body => 3 + weight params + weight body
  | .ifE _ _ c _ t => 4 + weight c + bare c + weight t
  | .ifElse _ _ c _ t _ e => 4 + weight c + bare c + weight t + weight e
  | .whileE _ _ c _ b => 3 + weight c + bare c + weight b
  | .forE _ _ _ _ _ seq _ b => 5 + weight seq + weight b
  | .repE _ b => 1 + weight b
  | .hole => 0
  | .named _ _ _ _ e => 2 + weight e
  | .comma a _ rest => weight a + 1 + weight rest
  | .snil => 0
  | .scons e semis rest => weight e + semis.length + weight rest

omit [Want] in
theorem fnName_setGap (h e) : fnName (setGap h e) = fnName e := by
  cases e with
  | atom g k s => cases k <;> rfl
  | ext l g a g2 k s =>
    cases l <;> simp only [setGap, fnName]
    cases k <;> simp [fnName]
    rename_i k' _
    cases k' <;> rfl
  | _ => rfl

omit [Want] in
theorem textIs_setGap (s h e) : textIs s (setGap h e) = textIs s e := by
  cases e <;> try rfl
  rename_i k _; cases k <;> rfl

omit [Want] in
theorem callee_setGap (h e) : callee (setGap h e) = callee e := by unfold callee; rw [textIs_setGap, textIs_setGap, fnName_setGap]

omit [Want] in
theorem callee_of {f} (h : fnName f ∈ doubleNames) : callee f ∈ doubleNames := by
  unfold callee; split
  · decide
  · split
    · decide
    · exact h

omit [Want] in
theorem bare_setGap (h e) : bare (setGap h e) = bare e := by
  unfold bare calls
  cases e <;> try rfl
  case call f g b args g2 => cases b <;> simp [setGap, asCall, fnName_setGap]

theorem weight_setGap (h e) : weight (setGap h e) = weight e := by
  induction e <;> simp_all [setGap, weight, fnName_setGap, callee_setGap, regexPrice]

omit [Want] in
theorem atomWeight_pos (k s) : 1 ≤ atomWeight k s := by
  unfold atomWeight nameWeight; repeat' split
  all_goals omega

theorem opWeight_pos (o) : 1 ≤ opWeight o := by
  unfold opWeight; repeat' split
  all_goals omega

theorem weight_pos {e} (h : isExpr e = true) : 1 ≤ weight e := by
  cases e <;> simp only [weight] <;> first | (have := atomWeight_pos; simp_all; done) | omega | skip
  case bin l g o r => have := opWeight_pos o; omega
  all_goals simp [isExpr] at h

theorem fn_heavy {f} (h : fnName f ∈ heavyNames) : 2 ≤ weight f := by
  cases f with
  | atom g k s =>
    cases k <;> simp only [fnName] at h <;> simp only [weight, atomWeight, nameWeight]
    case id => simp [h]
    case ns => simp [h]
    all_goals exact absurd h (by decide)
  | ext l g a g2 k s => simp only [weight]; have := atomWeight_pos k s; omega
  | _ => exact absurd h (by simp only [fnName]; decide)

theorem fn_name {f s} (h : fnName f = s) (hs : '$' ∉ s ∧ '@' ∉ s ∧ s ≠ []) : nameWeight s ≤ weight f := by
  subst h
  cases f with
  | atom g k s =>
    cases k <;> simp only [fnName, weight, atomWeight] at hs ⊢
    all_goals first | exact Nat.le_refl _ | exact absurd rfl hs.2.2 | decide
  | ext l g a g2 k s =>
    exfalso
    revert hs
    cases l <;> simp only [fnName] <;> try (intro hs; exact hs.2.2 rfl)
    rename_i g' k' s'
    cases k' <;> cases k <;> (try (intro hs; exact hs.2.2 rfl))
    cases a <;> simp [fnName]
  | _ => simp only [fnName] at hs; exact absurd rfl hs.2.2

theorem asCall_weight {e f args} (h : asCall e = some (f, args)) :
    weight e = weight f + 2 + weight args + (if callee f ∈ doubleNames then weight args else 0) + regexPrice f args := by
  obtain ⟨g, g2, rfl⟩ := asCall_eq h
  simp [weight]

/-- A call, whose function is an expression. -/
theorem asCall_ge {md e f args} (hw : WF md e) (h : asCall e = some (f, args)) : 3 + weight args ≤ weight e := by
  have := asCall_weight h
  obtain ⟨g, g2, rfl⟩ := asCall_eq h
  have := weight_pos hw.1
  split at * <;> omega

theorem asCall_name {e f args s} (h : asCall e = some (f, args)) (hf : fnName f = s) (hs : '$' ∉ s ∧ '@' ∉ s ∧ s ≠ []) :
    nameWeight s + 2 + weight args + (if s ∈ doubleNames then weight args else 0) + regexPrice f args ≤ weight e := by
  have h1 := asCall_weight h
  have h2 := fn_name hf hs
  subst hf
  have h3 : (if fnName f ∈ doubleNames then weight args else 0) ≤ (if callee f ∈ doubleNames then weight args else 0) := by
    split
    · next h => rw [if_pos (callee_of h)]; exact Nat.le_refl _
    · exact Nat.zero_le _
  omega

theorem asCall_heavy {e f args} (h : asCall e = some (f, args)) (hf : fnName f ∈ heavyNames) : 4 + weight args ≤ weight e := by
  have := asCall_weight h
  have := fn_heavy hf
  split at * <;> omega

/-! ## Replacing makes the whole lighter -/

/-- A condition, or behind a prefix operator. -/
def atCondition : Frame → Bool
  | .ifC .. | .ieC .. | .whileC .. | .un .. => true
  | _ => false

/-- The function of a call. -/
def atCallee : Frame → Bool
  | .callF .. => true
  | _ => false

def specialNames : List Str := cs! "all.equal" :: doubleNames ++ regexNames

/-! ### Arguments that stay what they are -/

/-- The argument has the same name, and stays `TRUE`. -/
def ArgSim (a b : Node) : Prop := argName a = argName b ∧ ∀ v, argValue a = some v → textIs (cs! "TRUE") v = true → ∃ v', argValue b = some v' ∧ textIs (cs! "TRUE") v' = true

/-- The same for lists. -/
def Sim : List Node → List Node → Prop
  | [], [] => True
  | a :: as, b :: bs => ArgSim a b ∧ Sim as bs
  | _, _ => False

omit [Want] in
theorem ArgSim.refl (a) : ArgSim a a := ⟨rfl, fun v h1 h2 => ⟨v, h1, h2⟩⟩

omit [Want] in
theorem Sim.refl : ∀ as, Sim as as
  | [] => trivial
  | a :: as => ⟨ArgSim.refl a, Sim.refl as⟩

omit [Want] in
theorem Sim.byName : ∀ {as bs : List Node} (n : Str), Sim as bs →
    (argByName as n = none ∧ argByName bs n = none) ∨ ∃ a b, argByName as n = some a ∧ argByName bs n = some b ∧ ArgSim a b
  | [], [], _, _ => Or.inl ⟨rfl, rfl⟩
  | a :: as, b :: bs, n, ⟨h1, h2⟩ => by
    unfold argByName
    rw [List.find?_cons, List.find?_cons, ← h1.1]
    by_cases h : argName a = some n
    · simp only [h, decide_true]; exact Or.inr ⟨a, b, rfl, rfl, h1⟩
    · simp only [h, decide_false]; exact Sim.byName n h2

omit [Want] in
theorem Sim.unnamed : ∀ {as bs : List Node} (i : Nat), Sim as bs →
    ((unnamedArgs as)[i]? = none ∧ (unnamedArgs bs)[i]? = none) ∨ ∃ a b, (unnamedArgs as)[i]? = some a ∧ (unnamedArgs bs)[i]? = some b ∧ ArgSim a b
  | [], [], _, _ => Or.inl ⟨rfl, rfl⟩
  | a :: as, b :: bs, i, ⟨h1, h2⟩ => by
    unfold unnamedArgs
    rw [List.filter_cons, List.filter_cons, ← h1.1]
    cases h : argName a with
    | none =>
      simp only [Option.isNone_none, if_true]
      cases i with
      | zero => exact Or.inr ⟨a, b, rfl, rfl, h1⟩
      | succ i => simp only [List.getElem?_cons_succ]; exact Sim.unnamed i h2
    | some x => simp only [Option.isNone_some, Bool.false_eq_true, if_false]; exact Sim.unnamed i h2

omit [Want] in
theorem Sim.value {as bs : List Node} {n : Str} {pos : Nat} {v} (h : Sim as bs) (hv : valueBy as n pos = some v) (ht : textIs (cs! "TRUE") v = true) :
    ∃ v', valueBy bs n pos = some v' ∧ textIs (cs! "TRUE") v' = true := by
  unfold valueBy argBy at *
  rcases Sim.byName n h with ⟨h1, h2⟩ | ⟨a, b, h1, h2, h3⟩
  · rw [h1] at hv
    rw [h2]
    simp only at hv ⊢
    rcases Sim.unnamed pos h with ⟨h1, h2⟩ | ⟨a, b, h1, h2, h3⟩
    · rw [h1] at hv; cases hv
    · rw [h1] at hv
      rw [h2]
      exact h3.2 v hv ht
  · rw [h1] at hv
    rw [h2]
    exact h3.2 v hv ht

/-- The arguments keep their names and stay `TRUE`. -/
structure Stays (x x' : Node) : Prop where
  hole : x ≠ .hole
  hole' : x' ≠ .hole
  notTrue : textIs (cs! "TRUE") x = false
  one : ArgSim x x'
  list : Sim (argList x) (argList x')

omit [Want] in
theorem Stays.price {x x' : Node} (f : Node) (h : Stays x x') : regexPrice f x' ≤ regexPrice f x := by
  unfold regexPrice
  split
  · next hc =>
    have : fixedTrue (fnName f) x = false := by
      cases hx : fixedTrue (fnName f) x with
      | false => rfl
      | true =>
        unfold fixedTrue at hx hc
        split at hx
        · next v hv =>
          have hi : Sim (items x) (items x') := by unfold items; rw [if_neg h.hole, if_neg h.hole']; exact h.list
          obtain ⟨v', h1, h2⟩ := hi.value hv hx
          rw [h1] at hc
          simp [h2] at hc
        · cases hx
    rw [if_pos ⟨hc.1, this⟩]
    exact Nat.le_refl _
  · exact Nat.zero_le _

omit [Want] in
theorem Stays.fill {f : Frame} {x x'} (h : Stays x x') : Stays (f.fill x) (f.fill x') := by
  have h0 : f.fill x ≠ .hole ∧ f.fill x' ≠ .hole ∧ textIs (cs! "TRUE") (f.fill x) = false := by cases f <;> simp [Frame.fill, textIs]
  have h1 : ArgSim (f.fill x) (f.fill x') := by
    cases f
    case named g k s g2 =>
      refine ⟨rfl, fun v hv ht => ?_⟩
      have : v = x := by
        have := h.hole
        revert hv; simp only [Frame.fill]; cases x <;> simp_all [argValue]
      rw [this, h.notTrue] at ht; cases ht
    all_goals
      refine ⟨rfl, fun v hv ht => ?_⟩
      simp only [Frame.fill, argValue, Option.some.injEq] at hv
      subst hv
      simp [textIs] at ht
  refine ⟨h0.1, h0.2.1, h0.2.2, h1, ?_⟩
  cases f
  case commaA g r => exact ⟨h.one, Sim.refl _⟩
  case commaR a g => exact ⟨ArgSim.refl _, h.list⟩
  all_goals exact ⟨h1, trivial⟩

theorem Stays.expr {x x'} (hx : isExpr x = true) (hx' : isExpr x' = true) (hw : weight x' < weight x ∨ textIs (cs! "TRUE") x = false) : Stays x x' := by
  have h0 : textIs (cs! "TRUE") x = false := by
    rcases hw with hw | hw
    · have := weight_pos hx'
      cases ht : textIs (cs! "TRUE") x with
      | false => rfl
      | true =>
        exfalso
        cases x <;> simp only [textIs, Bool.false_eq_true] at ht
        rename_i g k s
        cases k <;> simp only [textIs, Bool.false_eq_true, decide_eq_true_eq] at ht <;> subst ht <;> simp only [weight, atomWeight] at hw <;>
          first | omega | (rw [show nameWeight (cs! "TRUE") = 1 by decide] at hw; omega) | (simp only [show (cs! "TRUE").head? ≠ some '.' by decide, if_false] at hw; omega)
    · exact hw
  have hl : ∀ y, isExpr y = true → argList y = [y] ∧ argName y = none ∧ argValue y = some y ∧ y ≠ .hole := by
    intro y hy; cases y <;> simp_all [isExpr, argList, argName, argValue]
  obtain ⟨a1, a2, a3, a4⟩ := hl x hx
  obtain ⟨b1, b2, b3, b4⟩ := hl x' hx'
  have h1 : ArgSim x x' := ⟨by rw [a2, b2], fun v hv ht => by rw [a3] at hv; cases hv; rw [h0] at ht; cases ht⟩
  exact ⟨a4, b4, h0, h1, by rw [a1, b1]; exact ⟨h1, trivial⟩⟩

/-! ### Lighter -/

/-- At this place, `x'` is lighter than `x`. -/
def Lighter (f : Option Frame) (x x' : Node) : Prop :=
  (f.map atCondition = some true → weight x' + bare x' < weight x + bare x) ∧ (f.map atCondition ≠ some true → weight x' < weight x) ∧
    (f.map atCallee = some true → callee x' ∉ specialNames)

/-- `x'` is lighter at every place. -/
def Lighter' (x x' : Node) : Prop := weight x' < weight x ∧ weight x' + bare x' < weight x + bare x ∧ callee x' ∉ specialNames

theorem Lighter'.at {x x'} (h : Lighter' x x') (f) : Lighter f x x' := ⟨fun _ => h.2.1, fun _ => h.1, fun _ => h.2.2⟩

omit [Want] in
theorem fnName_fill (f : Frame) (x : Node) : fnName (f.fill x) ∉ specialNames := by
  cases f <;> simp only [Frame.fill] <;> try (simp only [fnName]; decide)
  case ext g a g2 k s =>
    cases x <;> try (simp only [fnName]; decide)
    rename_i g' k' s'
    cases k' <;> try (simp only [fnName]; decide)
    cases k <;> simp only [fnName] <;> try decide
    have key : ∀ n ∈ specialNames, '@' ∉ n ∧ '$' ∉ n := by decide
    intro hm
    have := key _ hm
    cases a <;> simp at this

omit [Want] in
theorem callee_fill (f : Frame) (x : Node) : callee (f.fill x) ∉ specialNames := by
  have : callee (f.fill x) = fnName (f.fill x) := by cases f <;> rfl
  rw [this]; exact fnName_fill f x

omit [Want] in
theorem special_name {f} (h : callee f ∉ specialNames) : fnName f ∉ specialNames := by
  unfold callee at h
  split at h
  · exact absurd (by decide) h
  · split at h
    · exact absurd (by decide) h
    · exact h

omit [Want] in
theorem bare_fill {f : Frame} {x x'} (h : f.fill x ≠ f.fill x' → atCallee f = true → callee x' ∉ specialNames) : bare (f.fill x') ≤ bare (f.fill x) := by
  by_cases hx : f.fill x = f.fill x'
  · rw [hx]; exact Nat.le_refl _
  · cases f <;> simp only [Frame.fill] at * <;> try (simp [bare, calls, asCall]; done)
    case callF g b args g2 =>
      have := h hx rfl
      cases b <;> simp [bare, calls, asCall]
      have hn : fnName x' ≠ cs! "all.equal" := fun h => special_name this (by rw [h]; decide)
      simp [hn]
    case callA f g b g2 => cases b <;> simp [bare, calls, asCall]

theorem Lighter.fill {f : Frame} {x x'} (h : Lighter (some f) x x') (hs : Stays x x') : Lighter' (f.fill x) (f.fill x') := by
  have hb := bare_fill (f := f) (x := x) (x' := x') (fun _ hc => h.2.2 (by simp [hc]))
  have hw : weight (f.fill x') < weight (f.fill x) := by
    obtain ⟨h1, h2, h3⟩ := h
    simp only [Option.map_some, Option.some.injEq, ne_eq] at h1 h2 h3
    cases f <;> simp only [Frame.fill, weight] at *
    case callF g b args g2 =>
      have h2 := h2 (by simp [atCondition])
      have h3 := h3 rfl
      have e1 : callee x' ∉ doubleNames := fun h => h3 (by simp [specialNames, h])
      have e2 : fnName x' ∉ regexNames := fun h => special_name h3 (by simp [specialNames, h])
      have e3 : regexPrice x' args = 0 := by unfold regexPrice; rw [if_neg (fun h => e2 h.1)]
      simp only [e1, e3, and_false, if_false]
      split <;> omega
    case callA f' g b g2 => have h2 := h2 (by simp [atCondition]); have := hs.price f'; split <;> split <;> omega
    all_goals first | (have h1 := h1 rfl; omega) | (have h2 := h2 (by simp [atCondition]); omega)
  exact ⟨hw, by omega, callee_fill f x'⟩

theorem Lighter'.plug {x x'} (h : Lighter' x x') (hs : Stays x x') (fs) : weight (plug fs x') < weight (plug fs x) := by
  induction fs generalizing x x' with
  | nil => exact h.1
  | cons f fs ih => exact ih ((h.at _).fill hs) hs.fill

theorem Lighter.plug {fs x x'} (h : Lighter fs.head? x x') (hs : Stays x x') : weight (plug fs x') < weight (plug fs x) := by
  cases fs with
  | nil => exact h.2.1 (by simp)
  | cons f fs => exact Lighter'.plug (h.fill hs) hs.fill fs

/-! ## Sums over arguments -/

/-- The sum. -/
def sumBy {α} (w : α → Nat) (l : List α) : Nat := (l.map w).sum

omit [Want] in
theorem sumBy_nil {α} (w : α → Nat) : sumBy w [] = 0 := rfl
omit [Want] in
theorem sumBy_cons {α} (w : α → Nat) (a l) : sumBy w (a :: l) = w a + sumBy w l := by simp [sumBy]

omit [Want] in
theorem sumBy_mem {α} {w : α → Nat} {l : List α} {a} (h : a ∈ l) : w a ≤ sumBy w l := by
  induction l with
  | nil => cases h
  | cons b l ih =>
    rw [sumBy_cons]
    rcases List.mem_cons.mp h with rfl | h
    · omega
    · have := ih h; omega

omit [Want] in
theorem sumBy_pair {α} {w : α → Nat} {l : List α} {a b} (ha : a ∈ l) (hb : b ∈ l) (hne : a ≠ b) : w a + w b ≤ sumBy w l := by
  induction l with
  | nil => cases ha
  | cons c l ih =>
    rw [sumBy_cons]
    rcases List.mem_cons.mp ha with rfl | ha
    · rcases List.mem_cons.mp hb with h | hb
      · exact absurd h.symm hne
      · have := sumBy_mem (w := w) hb; omega
    · rcases List.mem_cons.mp hb with h | hb
      · have := sumBy_mem (w := w) ha; rw [h]; omega
      · have := ih ha hb; omega

omit [Want] in
theorem sumBy_index {α} {w : α → Nat} {l : List α} {i j : Nat} {a b} (ha : l[i]? = some a) (hb : l[j]? = some b) (hne : i ≠ j) : w a + w b ≤ sumBy w l := by
  induction l generalizing i j with
  | nil => cases ha
  | cons c l ih =>
    rw [sumBy_cons]
    cases i with
    | zero =>
      cases j with
      | zero => exact absurd rfl hne
      | succ j =>
        simp only [List.getElem?_cons_zero, Option.some.injEq, List.getElem?_cons_succ] at ha hb
        have := sumBy_mem (w := w) (List.mem_of_getElem? hb); subst ha; omega
    | succ i =>
      cases j with
      | zero =>
        simp only [List.getElem?_cons_zero, Option.some.injEq, List.getElem?_cons_succ] at ha hb
        have := sumBy_mem (w := w) (List.mem_of_getElem? ha); subst hb; omega
      | succ j =>
        simp only [List.getElem?_cons_succ] at ha hb
        have := ih ha hb (by omega); omega

omit [Want] in
theorem sumBy_split {α} (w : α → Nat) (p : α → Bool) (l : List α) : sumBy w (l.filter p) + sumBy w (l.filter fun a => !p a) = sumBy w l := by
  induction l with
  | nil => rfl
  | cons a l ih =>
    rw [List.filter_cons, List.filter_cons, sumBy_cons]
    cases p a <;> simp only [Bool.false_eq_true, if_false, Bool.not_false, if_true, Bool.not_true, sumBy_cons] <;> omega

omit [Want] in
theorem sumBy_sublist {α} {w : α → Nat} {l l' : List α} (h : l.Sublist l') : sumBy w l ≤ sumBy w l' := by
  induction h with
  | slnil => exact Nat.le_refl _
  | cons _ _ ih => rw [sumBy_cons]; omega
  | cons_cons _ _ ih => rw [sumBy_cons, sumBy_cons]; omega

omit [Want] in
theorem sumBy_map {α β} (w : β → Nat) (f : α → β) (l : List α) : sumBy w (l.map f) = sumBy (fun a => w (f a)) l := by
  induction l with
  | nil => rfl
  | cons a l ih => rw [List.map_cons, sumBy_cons, sumBy_cons, ih]

/-- The weight of an argument, with the comma. -/
def argWeight (a : Node) : Nat := weight a + 1

theorem argList_weight (n : Node) : sumBy argWeight (argList n) = weight n + 1 := by
  induction n <;> simp_all [argList, sumBy, argWeight, weight]
  omega

theorem items_weight (args : Node) : sumBy argWeight (items args) ≤ weight args + 1 := by
  unfold items
  split
  · simp [sumBy]
  · exact Nat.le_of_eq (argList_weight args)

theorem argValue_weight {a v} (h : argValue a = some v) : weight v ≤ weight a := by
  cases a <;> simp only [argValue, Option.some.injEq, reduceCtorEq] at h <;> try (subst h; exact Nat.le_refl _)
  case named g k s g2 e =>
    have : v = e := by revert h; cases e <;> simp [argValue] <;> exact fun h => h.symm
    subst this; simp only [weight]; omega

theorem item_weight {args a} (h : a ∈ items args) : weight a ≤ weight args := by
  have := sumBy_mem (w := argWeight) h
  have := items_weight args
  unfold argWeight at *; omega

theorem valueBy_weight {args n pos v} (h : valueBy (items args) n pos = some v) : weight v ≤ weight args := by
  unfold valueBy at h
  obtain ⟨a, h1, h2⟩ := Option.bind_eq_some_iff.mp h
  exact Nat.le_trans (argValue_weight h2) (item_weight (argBy_mem h1))

omit [Want] in
theorem argBy_name {as n pos a} (h : argBy as n pos = some a) : argName a = some n ∨ (argName a = none ∧ (unnamedArgs as)[pos]? = some a) := by
  unfold argBy at h
  split at h
  · next b hb =>
    cases h
    have := List.find?_some hb
    exact Or.inl (of_decide_eq_true this)
  · have := (List.mem_filter.mp (List.mem_of_getElem? h)).2
    exact Or.inr ⟨by simpa using this, h⟩

/-- Two arguments, found by different names and at different positions. -/
theorem argBy_two {as n m i j a b} (ha : argBy as n i = some a) (hb : argBy as m j = some b) (hn : n ≠ m) (hi : i ≠ j) :
    argWeight a + argWeight b ≤ sumBy argWeight as := by
  have ma := argBy_mem ha
  have mb := argBy_mem hb
  rcases argBy_name ha with h1 | ⟨h1, h1'⟩ <;> rcases argBy_name hb with h2 | ⟨h2, h2'⟩
  · exact sumBy_pair ma mb (fun h => by rw [h, h2] at h1; exact hn (Option.some.inj h1).symm)
  · exact sumBy_pair ma mb (fun h => by rw [h, h2] at h1; cases h1)
  · exact sumBy_pair ma mb (fun h => by rw [h, h2] at h1; cases h1)
  · exact Nat.le_trans (sumBy_index h1' h2' hi) (sumBy_sublist (List.filter_sublist ..))

theorem valueBy_two {args n m i j v w} (hv : valueBy (items args) n i = some v) (hw : valueBy (items args) m j = some w) (hn : n ≠ m) (hi : i ≠ j) :
    weight v + weight w + 1 ≤ weight args := by
  unfold valueBy at hv hw
  obtain ⟨a, h1, h2⟩ := Option.bind_eq_some_iff.mp hv
  obtain ⟨b, h3, h4⟩ := Option.bind_eq_some_iff.mp hw
  have := argBy_two h1 h3 hn hi
  have := argValue_weight h2
  have := argValue_weight h4
  have := items_weight args
  unfold argWeight at *; omega

theorem dropArg_weight {as n pos bs} (h : dropArg as n pos = some bs) : sumBy argWeight bs ≤ sumBy argWeight as := by
  unfold dropArg at h
  split at h
  · cases h; exact sumBy_sublist (List.filter_sublist ..)
  · split at h
    · cases h; exact sumBy_sublist (List.eraseIdx_sublist ..)
    · cases h

/-! ## Text with a weight -/

/-- The tokens are a list of arguments of at most this weight. -/
def ArgsW (c : List Tok) (w : Nat) : Prop := ∃ n, isArgs n = true ∧ WF .free n ∧ argBp ≤ lp n ∧ toks n = c ∧ weight n ≤ w

/-- The tokens are an expression of at most this weight. -/
def ExprW (c : List Tok) (w : Nat) : Prop :=
  ∃ n, isExpr n = true ∧ WF .free n ∧ postfixBp ≤ lp n ∧ toks n = c ∧ weight n + bare n ≤ w ∧ callee n = []

theorem ArgsW.mono {c w v} (h : ArgsW c w) (hv : w ≤ v) : ArgsW c v := by
  obtain ⟨n, a, b, d, e, f⟩ := h
  exact ⟨n, a, b, d, e, Nat.le_trans f hv⟩

theorem ArgsW.nil (w) : ArgsW [] w := ⟨.hole, rfl, trivial, by decide, rfl, Nat.zero_le _⟩

theorem ExprW.args {c w} (h : ExprW c w) : ArgsW c w := by
  obtain ⟨n, a, b, d, e, f, _⟩ := h
  exact ⟨n, isArgs_of_isArg (isArg_of_isExpr a), b, Nat.le_trans (by decide) d, e, by omega⟩

theorem ArgsW.comma {c d w v} (hc : ArgsW c w) (hd : ArgsW d v) : ArgsW (c ++ tk .comma :: d) (w + 1 + v) := by
  obtain ⟨n, h1, h2, h3, rfl, h4⟩ := hc
  refine ArgsW.mono (w := weight n + 1 + v) ?_ (by omega)
  clear h4
  induction n with
  | comma a g r _ ihr =>
    obtain ⟨m, m1, m2, m3, m4, m5⟩ := ihr h2.2.2.2.1 h2.2.2.2.2.1 h2.2.2.2.2.2
    exact ⟨.comma a g m, rfl, ⟨h2.1, h2.2.1, h2.2.2.1, m1, m2, m3⟩, show argBp ≤ topBp by decide, by simp [toks, m4], by simp only [weight]; omega⟩
  | _ =>
    obtain ⟨m, m1, m2, m3, rfl, m4⟩ := hd
    refine ⟨.comma _ .none m, rfl, ⟨?_, h2, h3, m1, m2, m3⟩, show argBp ≤ topBp by decide, rfl, by simp only [weight] at *; omega⟩
    first | rfl | (simp [isArgs, isArg, isExpr] at h1; done)

theorem ArgOk.textW {a} (h : ArgOk a) : ArgsW (trimmed a) (weight a) :=
  ⟨setGap .none a, by rw [setGap_isArgs]; exact isArgs_of_isArg h.arg, setGap_wf h.wf, by rw [setGap_lp]; exact h.lp, setGap_toks h.arg h.wf, by rw [weight_setGap]; exact Nat.le_refl _⟩

theorem ExprOk.textW {a} (h : ExprOk a) : ArgsW (trimmed a) (weight a) := h.argOk.textW

theorem asCall_textW {md e f args} (hw : WF md e) (h : asCall e = some (f, args)) : ArgsW (toks args) (weight args) := by
  obtain ⟨a, b, c⟩ := asCall_ok hw h
  exact ⟨args, a, b, c, rfl, Nat.le_refl _⟩

theorem ArgsW.join {l : List Node} (h : ∀ a ∈ l, ArgOk a) {w} (hw : sumBy argWeight l ≤ w + 1) : ArgsW (joinComma (l.map trimmed)) w := by
  induction l generalizing w with
  | nil => exact ArgsW.nil _
  | cons a as ih =>
    rw [sumBy_cons] at hw
    cases as with
    | nil => exact (h a (by simp)).textW.mono (by unfold argWeight at hw; omega)
    | cons b bs =>
      have hb : 1 ≤ sumBy argWeight (b :: bs) := by rw [sumBy_cons]; unfold argWeight; omega
      have := (h a (by simp)).textW.comma (ih (w := w - weight a - 1) (fun c hc => h c (by simp [hc])) (by unfold argWeight at *; omega))
      exact this.mono (by unfold argWeight at *; omega)

omit [Want] in
theorem callee_id (g s) : callee (.atom g .id s) = s := by
  unfold callee textIs; simp only [fnName]
  split
  · next h => exact (of_decide_eq_true h).symm
  · split
    · next h => exact (of_decide_eq_true h).symm
    · rfl

omit [Want] in
theorem callee_ns (g a b s) : callee (.atom g (.ns a b) s) = s := rfl

theorem ExprW.call {c k name w} (h : ArgsW c w) (hn : callee (.atom .none k name) ∉ specialNames) :
    ExprW (tk (.atom k name) :: tk (.open .par) :: c ++ [tk (.close .par)]) (atomWeight k name + 2 + w) := by
  obtain ⟨n, a, b, d, rfl, e⟩ := h
  have h1 : callee (.atom .none k name) ∉ doubleNames := fun h => hn (by simp [specialNames, h])
  have h3 : fnName (.atom .none k name) ∉ regexNames := fun h => special_name hn (by simp [specialNames, h])
  have h4 : regexPrice (.atom .none k name) n = 0 := by unfold regexPrice; rw [if_neg (fun h => h3 h.1)]
  have h2 : fnName (.atom .none k name) ≠ cs! "all.equal" := fun h => special_name hn (by rw [h]; decide)
  refine ⟨.call (.atom .none k name) .none .par n .none, rfl, ⟨rfl, trivial, Or.inl rfl, show postfixBp < topBp by decide, a, b, d⟩, by simp [lp, topBp, postfixBp],
    by simp [toks, tk], ?_, rfl⟩
  simp only [weight, bare, calls, asCall, h1, h2, h4, and_false, if_false, decide_false, Bool.false_eq_true, ite_self]
  omega

/-- A call of any function. -/
theorem ExprW.callAny {c name w} (h : ArgsW c w) : ExprW (callText name c)
    (nameWeight name + 2 + w + (if name ∈ doubleNames then w else 0) + (if name ∈ regexNames then 6 else 0) + (if name = cs! "all.equal" then 4 else 0)) := by
  obtain ⟨n, a, b, d, rfl, e⟩ := h
  refine ⟨.call (.atom .none .id name) .none .par n .none, rfl, ⟨rfl, trivial, Or.inl rfl, show postfixBp < topBp by decide, a, b, d⟩, by simp [lp, topBp, postfixBp],
    by simp [Jarl.callText, toks, tk], ?_, rfl⟩
  have h1 : regexPrice (.atom .none .id name) n ≤ (if name ∈ regexNames then 6 else 0) := by
    by_cases hr : name ∈ regexNames
    · rw [if_pos hr]; unfold regexPrice; split <;> omega
    · rw [if_neg hr]; unfold regexPrice; rw [if_neg (fun h => hr h.1)]; exact Nat.le_refl _
  have h2 : weight (.call (.atom .none .id name) .none .par n .none) = nameWeight name + 2 + weight n + (if name ∈ doubleNames then weight n else 0) + regexPrice (.atom .none .id name) n := by
    simp [weight, atomWeight, callee_id]
  have h3 : bare (.call (.atom .none .id name) .none .par n .none) = if name = cs! "all.equal" then 4 else 0 := by
    by_cases he : name = cs! "all.equal"
    · subst he; rfl
    · simp only [bare, calls, asCall, fnName, he, decide_false, if_false, Bool.false_eq_true]
  rw [h2, h3]
  split <;> omega

theorem ExprW.callText {c name w} (h : ArgsW c w) (hn : name ∉ specialNames) : ExprW (callText name c) (nameWeight name + 2 + w) := ExprW.call (k := .id) h (by rw [callee_id]; exact hn)

theorem ExprW.prefixed {c f name w} (h : ArgsW c w) (hn : name ∉ specialNames) : ExprW (prefixedText f name c) (nameWeight name + 2 + w) := by
  unfold prefixedText Jarl.prefixed
  split
  · next pkg _ _ => exact ExprW.call (k := .ns pkg false) h hn
  · exact ExprW.call (k := .id) h (by rw [callee_id]; exact hn)

theorem ExprW.bang {c w} (h : ExprW c w) : ExprW (tk (.op .bang) :: c) (w + 1) := by
  obtain ⟨n, a, b, d, rfl, e, f⟩ := h
  exact ⟨.un .none .bang n, rfl, ⟨a, b, 9, rfl, Nat.le_trans (by decide) d⟩, show postfixBp ≤ topBp by decide, by simp [toks, tk], by
    have hb : bare (.un .none .bang n) = 0 := rfl
    simp only [weight, hb]; omega, rfl⟩

theorem ExprW.atom {k s} (h : callee (.atom .none k s) = []) : ExprW [tk (.atom k s)] (atomWeight k s) :=
  ⟨.atom .none k s, rfl, trivial, show postfixBp ≤ topBp by decide, rfl, by simp [weight, bare, calls, asCall], h⟩

theorem ArgsW.atom {k s} : ArgsW [tk (.atom k s)] (atomWeight k s) :=
  ⟨.atom .none k s, rfl, trivial, show argBp ≤ topBp by decide, rfl, Nat.le_refl _⟩

omit [Want] in
/-- The expression that the text is, is the one that is meant. -/
theorem read_unique {n e' md} {g : Gap} (hn : isExpr n = true) (hwn : WF .free n) (he : isExpr e' = true) (hw : WF md e') (ht : toks e' = joinHead g (toks n)) :
    ∃ h, e' = setGap h n := by
  obtain ⟨h, h1, _⟩ := joinHead_eq g (toks n)
  refine ⟨h, expr_unique he (by rw [setGap_isExpr]; exact hn) hw (setGap_wf hwn) ?_⟩
  rw [ht, h1, setGap_toks (isArg_of_isExpr hn) hwn]

theorem ExprW.lighter {c w x e' md} {g : Gap} (h : ExprW c w) (hw : w < weight x) (he : isExpr e' = true) (hwe : WF md e') (ht : toks e' = joinHead g c) : Lighter' x e' := by
  obtain ⟨n, a, b, _, rfl, e, f⟩ := h
  obtain ⟨k, rfl⟩ := read_unique a b he hwe ht
  refine ⟨by rw [weight_setGap]; omega, by rw [weight_setGap, bare_setGap]; omega, ?_⟩
  rw [callee_setGap, f]; decide

/-- The rule makes programs lighter. -/
def FallsRule (r : Zip → Option Edit) : Prop :=
  ∀ ts p z ed, Parses ts p → z.prog = p → r z = some ed → ∀ md e', isExpr e' = true → WF md e' → toks e' = joinHead (headGap (toks ed.z.e)) ed.content →
    Lighter ed.z.fs.head? ed.z.e e'

/-- The same, where the place is not the function of a call. -/
def FallsAt (r : Zip → Option Edit) : Prop :=
  ∀ ts p z ed, Parses ts p → z.prog = p → r z = some ed → ed.z.fs.head?.map atCallee ≠ some true → ∀ md e', isExpr e' = true → WF md e' →
    toks e' = joinHead (headGap (toks ed.z.e)) ed.content → Lighter ed.z.fs.head? ed.z.e e'

theorem FallsRule.at {r} (h : FallsRule r) : FallsAt r := fun ts p z ed hp hz hr _ => h ts p z ed hp hz hr

/-- An expression in place of another. -/
theorem lighter_node {f : Option Frame} {x n e' : Node} {md} {g : Gap} (hn : isExpr n = true) (hw : WF .free n) (he : isExpr e' = true) (hwe : WF md e') (ht : toks e' = joinHead g (toks n))
    (h1 : weight n + bare n < weight x) (hf : f.map atCallee ≠ some true ∨ callee n = []) : Lighter f x e' := by
  obtain ⟨k, rfl⟩ := read_unique hn hw he hwe ht
  refine ⟨fun _ => by rw [weight_setGap, bare_setGap]; omega, fun _ => by rw [weight_setGap]; omega, fun h => ?_⟩
  rcases hf with hf | hf
  · exact absurd h hf
  · rw [callee_setGap, hf]; decide

omit [Want] in
theorem bare_le (e) : bare e ≤ 4 := by unfold bare; split <;> omega

end Jarl

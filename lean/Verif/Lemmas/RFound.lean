import Verif.Lemmas.RLaws
import Verif.Spec.RFound
/-!
# Code and the same code without layout
-/
namespace Jarl
open Spec

/-- The rule proposes to replace the code at the place where it looks. -/
def Hits (r : Zip → Option Edit) (z : Zip) : Prop := (r z).map (·.z) = some z

theorem Hits.some {r z} (h : Hits r z) : ∃ ed, r z = some ed ∧ ed.z = z := by
  unfold Hits at h
  cases hr : r z with
  | none => rw [hr] at h; cases h
  | some ed => rw [hr] at h; exact ⟨ed, rfl, by simpa using h⟩

@[simp] theorem guard_true : (guard True : Option Unit) = some () := by simp [guard]

theorem asUn_un (g : Gap) (o : Op) (e : Node) : asUn (.un g o e) = some (o, e) := rfl

theorem argList_bare (n : Node) : argList (bare n) = (argList n).map bare := by
  induction n with
  | comma a g r _ ih => simp [bare, argList, ih]
  | _ => rfl

theorem bare_hole {n : Node} : bare n = .hole ↔ n = .hole := by cases n <;> simp [bare]

theorem items_bare (n : Node) : items (bare n) = (items n).map bare := by
  unfold items
  simp only [bare_hole]
  split
  · rfl
  · exact argList_bare n

theorem nameOf_eq (a : Node) : nameOf a = argName a := by cases a <;> rfl

theorem nameOf_bare (a : Node) : nameOf (bare a) = argName a := by cases a <;> rfl

theorem value_bare {a v : Node} (h : valueOf (bare a) = some v) : ∃ v0, argValue a = some v0 ∧ bare v0 = v := by
  cases a with
  | named g k s g2 e =>
    cases e <;> simp [bare, valueOf] at h <;> exact ⟨_, rfl, by simpa [bare] using h⟩
  | hole => cases h
  | comma => cases h
  | snil => cases h
  | scons => cases h
  | _ => exact ⟨_, rfl, by simpa [bare, valueOf] using h⟩

theorem argList_of_isArg {a : Node} (h : isArg a = true) : argList a = [a] := by
  cases a <;> simp [isArg, isExpr] at h <;> rfl

theorem argList_mkArgs : ∀ {as : List Node}, as ≠ [] → (∀ a ∈ as, isArg a = true) → argList (mkArgs as) = as
  | [a], _, h => argList_of_isArg (h a (by simp))
  | a :: b :: as, _, h => by
    rw [mkArgs, argList, argList_mkArgs (by simp) fun x hx => h x (by simp [hx])]
    simp

theorem mkArgs_hole : ∀ {as : List Node}, mkArgs as = .hole → as = [] ∨ as = [.hole]
  | [], _ => Or.inl rfl
  | [a], h => Or.inr (by rw [show a = .hole from h])
  | _ :: _ :: _, h => by cases h

theorem items_mkArgs {as : List Node} (hne : as ≠ [.hole]) (h : ∀ a ∈ as, isArg a = true) : items (mkArgs as) = as := by
  unfold items
  split
  · next hh => rcases mkArgs_hole hh with rfl | h <;> simp_all
  · next hh =>
    cases as with
    | nil => exact absurd rfl hh
    | cons a as => exact argList_mkArgs (by simp) h

/-- A call, whatever its layout. -/
theorem call_inv {e f : Node} {as : List Node} (h : bare e = callOf f as) : ∃ f0 args, asCall e = some (f0, args) ∧ bare f0 = f ∧ bare args = mkArgs as := by
  cases e <;> simp [bare, callOf] at h
  next f0 g b args g2 =>
  obtain ⟨h1, rfl, h2⟩ := h
  exact ⟨f0, args, rfl, h1, h2⟩

/-- A call with its arguments. -/
theorem call_items {e f : Node} {as : List Node} (h : bare e = callOf f as) (hne : as ≠ [.hole]) (ha : ∀ a ∈ as, isArg a = true) :
    ∃ f0 args, asCall e = some (f0, args) ∧ bare f0 = f ∧ (items args).map bare = as := by
  obtain ⟨f0, args, h1, h2, h3⟩ := call_inv h
  exact ⟨f0, args, h1, h2, by rw [← items_bare, h3, items_mkArgs hne ha]⟩

theorem fn_bare {f : Node} {name : Str} (h : Fn name (bare f)) : fnName f = name := by
  rcases h with h | ⟨pkg, i, h⟩ <;> cases f <;> simp [bare, sym] at h <;> (obtain ⟨rfl, rfl⟩ := h; rfl)

theorem text_bare {s : Str} {n : Node} (h : Text s (bare n)) : textIs s n = true := by
  obtain ⟨k, h, hk⟩ := h
  cases n <;> simp [bare] at h
  obtain ⟨rfl, rfl⟩ := h
  unfold textIs
  split
  · next heq => cases heq; exact absurd rfl (hk _ _)
  · next heq => cases heq; simp
  · next h => exact absurd rfl (h _ _ _)

theorem textIs_bare (s : Str) (n : Node) : textIs s (bare n) = textIs s n := by
  cases n <;> try rfl
  next g k s => cases k <;> rfl

theorem const_bare {k : AKind} {n : Node} (h : Const k (bare n)) : isAtom k n = true := by
  obtain ⟨s, h⟩ := h
  cases n <;> simp [bare] at h
  obtain ⟨rfl, rfl⟩ := h
  simp [isAtom]

theorem isAtom_bare {k : AKind} {n : Node} : isAtom k n = true ↔ Const k (bare n) := by
  refine ⟨fun h => ?_, const_bare⟩
  cases n <;> simp [isAtom] at h
  subst h; exact ⟨_, rfl⟩

theorem textIs_iff_text {s : Str} {n : Node} : textIs s n = true ↔ Text s (bare n) := by
  refine ⟨fun h => ?_, text_bare⟩
  unfold textIs at h
  split at h
  · cases h
  · next hne => simp only [decide_eq_true_eq] at h; subst h; exact ⟨_, rfl, fun pkg i hk => hne pkg i hk⟩
  · cases h

theorem bin_inv {e l r : Node} {o : Op} (h : bare e = .bin l .none o r) : ∃ l0 r0 g, e = .bin l0 g o r0 ∧ bare l0 = l ∧ bare r0 = r := by
  cases e <;> simp [bare] at h
  obtain ⟨h1, rfl, h2⟩ := h
  exact ⟨_, _, _, rfl, h1, h2⟩

theorem un_inv {e x : Node} {o : Op} (h : bare e = .un .none o x) : ∃ x0 g, e = .un g o x0 ∧ bare x0 = x := by
  cases e <;> simp [bare] at h
  obtain ⟨rfl, h2⟩ := h
  exact ⟨_, _, rfl, h2⟩

theorem find_bare {as : List Node} {x : Str} : (as.map bare).find? (fun a => nameOf a = some x) = (argByName as x).map bare := by
  unfold argByName
  induction as with
  | nil => rfl
  | cons a as ih =>
    simp only [List.map_cons, List.find?_cons, nameOf_bare]
    split
    · rfl
    · exact ih

theorem filter_bare {as : List Node} {p : Option Str → Bool} :
    (as.map bare).filter (fun a => p (nameOf a)) = (as.filter (fun a => p (argName a))).map bare := by
  induction as with
  | nil => rfl
  | cons a as ih =>
    simp only [List.map_cons, List.filter_cons, nameOf_bare]
    split <;> simp [ih]

theorem any_bare {as : List Node} {q : Str} : (as.map bare).any (fun a => nameOf a = some q) = as.any (fun a => argName a = some q) := by
  induction as with
  | nil => rfl
  | cons a as ih => simp only [List.map_cons, List.any_cons, nameOf_bare, ih]

/-- What R passes for a parameter is what is found by name and then by position, if no parameter in front of it is given by name. -/
theorem matched {params : List Str} {bs : List Node} {x : Str} {v : Node} (h : matchArg params (bs.map bare) x = some v) (pos : Nat) (hx : params[pos]? = some x)
    (h1 : x ∉ params.take pos) (ho : ∀ q ∈ params.take pos, (∃ a ∈ bs, argName a = some q) → ∃ a ∈ bs, argName a = some x) :
    ∃ v0, valueBy bs x pos = some v0 ∧ bare v0 = v := by
  unfold matchArg at h
  rw [find_bare] at h
  unfold valueBy argBy
  cases hn : argByName bs x with
  | some a =>
    rw [hn] at h
    exact value_bare h
  | none =>
    rw [hn] at h
    have hnone : ∀ a ∈ bs, argName a ≠ some x := by
      intro a ha; have := List.find?_eq_none.mp hn a ha; simpa using this
    have : (params.filter (fun q => !(bs.map bare).any (fun a => decide (nameOf a = some q)))).findIdx? (· = x) = some pos := by
      refine findIdx_of hx h1 (fun q hq => ?_) ?_
      · rw [any_bare]
        simp only [Bool.not_eq_true', List.any_eq_false, decide_eq_true_eq]
        intro a ha hq'
        obtain ⟨b, hb, hbx⟩ := ho q hq ⟨a, ha, hq'⟩
        exact hnone b hb hbx
      · rw [any_bare]; simpa using hnone
    simp only [Option.map_none, this] at h
    rw [filter_bare (p := fun o => o.isNone), List.getElem?_map] at h
    simp only [unnamedArgs]
    cases hu : (bs.filter (fun a => (argName a).isNone))[pos]? with
    | none => rw [hu] at h; cases h
    | some a => rw [hu] at h; exact value_bare h

theorem matched_first {x : Str} {params : List Str} {bs : List Node} {v : Node} (h : matchArg (x :: params) (bs.map bare) x = some v) : ∃ v0, valueBy bs x 0 = some v0 ∧ bare v0 = v :=
  matched h 0 rfl (by simp) (by simp)

theorem matched_second {x y : Str} {params : List Str} {bs : List Node} {v : Node} (h : matchArg (x :: y :: params) (bs.map bare) y = some v) (hne : y ≠ x)
    (ho : InOrder (x :: y :: params) bs) : ∃ v0, valueBy bs y 1 = some v0 ∧ bare v0 = v :=
  matched h 1 rfl (by simpa using hne) (by
    simp only [InOrder, List.pairwise_cons, List.mem_cons, nameOf_eq] at ho
    intro q hq; simp at hq; subst hq; exact ho.1 y (Or.inl rfl))

theorem matched_third {x y w : Str} {params : List Str} {bs : List Node} {v : Node} (h : matchArg (x :: y :: w :: params) (bs.map bare) w = some v) (h1 : w ≠ x) (h2 : w ≠ y)
    (ho : InOrder (x :: y :: w :: params) bs) : ∃ v0, valueBy bs w 2 = some v0 ∧ bare v0 = v :=
  matched h 2 rfl (by simpa using ⟨h1, h2⟩) (by
    simp only [InOrder, List.pairwise_cons, List.mem_cons, nameOf_eq] at ho
    intro q hq; simp at hq
    rcases hq with rfl | rfl
    · exact ho.1 w (Or.inr (Or.inl rfl))
    · exact ho.2.1 w (Or.inl rfl))

theorem single_inv {p : Str} {bs : List Node} {x : Node} (h : Single p (bs.map bare) x) : bs.length = 1 ∧ ∃ v0, valueBy bs p 0 = some v0 ∧ bare v0 = x :=
  ⟨by simpa using h.1, matched_first h.2.2⟩

theorem single_ne {p : Str} {as : List Node} {x : Node} (h : Single p as x) : as ≠ [.hole] := by
  rintro rfl
  simp [Single, matchArg, nameOf, valueOf] at h

end Jarl

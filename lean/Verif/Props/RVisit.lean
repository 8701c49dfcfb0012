import Verif.Spec.RVisit
import Verif.Lemmas.RFix
set_option linter.unusedSimpArgs false
namespace Jarl
open Spec

theorem plug_snoc (inner : List Frame) (f : Frame) (e : Node) : plug (inner ++ [f]) e = f.fill (plug inner e) := by
  induction inner generalizing e with
  | nil => rfl
  | cons a as ih => simp [plug, ih]

theorem hidden_nil : ¬ OutOfSight [] := by
  rintro ⟨i, f, o, h, _⟩; simp at h

theorem hidden_snoc (inner : List Frame) (f : Frame) : OutOfSight (inner ++ [f]) ↔ OutOfSight inner ∨ OnTheLeft f ∨ Params f ∧ ¬ InDefault inner := by
  constructor
  · rintro ⟨i, f', o, h, hf⟩
    rcases List.eq_nil_or_concat o with rfl | ⟨o', x, rfl⟩
    · have h := List.append_inj' h rfl
      obtain ⟨rfl, h2⟩ := h
      simp at h2; subst h2; exact Or.inr hf
    · left
      rw [List.concat_eq_append, ← List.cons_append, ← List.append_assoc] at h
      exact ⟨i, f', o', (List.append_inj' h rfl).1, hf⟩
  · rintro (⟨i, f', o, rfl, hf⟩ | hf)
    · exact ⟨i, f', o ++ [f], by simp, hf⟩
    · exact ⟨inner, f, [], rfl, hf⟩

theorem inDefault_nil : ¬ InDefault [] := by
  rintro ⟨i, g, k, s, g2, o, h, _⟩; simp at h

/-- The outermost frame of a place in a default value is a comma or the `=`. -/
theorem inDefault_snoc (inner : List Frame) (f : Frame) : InDefault (inner ++ [f]) ↔
    (∃ g k s g2, f = .named g k s g2) ∨ ((∃ g r, f = .commaA g r) ∨ ∃ a g, f = .commaR a g) ∧ InDefault inner := by
  constructor
  · rintro ⟨i, g, k, s, g2, o, h, ho⟩
    rcases List.eq_nil_or_concat o with rfl | ⟨o', x, rfl⟩
    · obtain ⟨_, h2⟩ := List.append_inj' h rfl
      simp at h2; exact Or.inl ⟨g, k, s, g2, h2⟩
    · rw [List.concat_eq_append, ← List.cons_append, ← List.append_assoc] at h
      obtain ⟨h1, h2⟩ := List.append_inj' h rfl
      simp at h2; subst h2
      exact Or.inr ⟨ho f (by simp), i, g, k, s, g2, o', h1, fun f' hf' => ho f' (by simp [hf'])⟩
  · rintro (⟨g, k, s, g2, rfl⟩ | ⟨hf, i, g, k, s, g2, o, rfl, ho⟩)
    · exact ⟨inner, g, k, s, g2, [], rfl, by simp⟩
    · refine ⟨i, g, k, s, g2, o ++ [f], by simp, fun f' hf' => ?_⟩
      rcases List.mem_append.mp hf' with h | h
      · exact ho f' h
      · simp at h; subst h; exact hf

/-- Like `NsCallee` and `OutOfSight`, for a part of the place. -/
def Vis (inner : List Frame) (e : Node) : Prop :=
  ¬ OutOfSight inner ∨ isNs e = true ∧ ∃ g args g2 outer, inner = .callF g .par args g2 :: outer ∧ ¬ OutOfSight outer

theorem inDefault_cons_callF (g : Gap) (b : Br) (args : Node) (g2 : Gap) (inner : List Frame) :
    InDefault (.callF g b args g2 :: inner) ↔ InDefault inner := by
  constructor
  · rintro ⟨i, g, k, s, g2, o, h, ho⟩
    cases i with
    | nil => simp at h
    | cons a as => simp at h; exact ⟨as, g, k, s, g2, o, h.2, ho⟩
  · rintro ⟨i, g', k, s, g2', o, rfl, ho⟩
    exact ⟨_ :: i, g', k, s, g2', o, rfl, ho⟩

theorem vis_snoc {inner : List Frame} {f : Frame} {e : Node} (h1 : ¬ OnTheLeft f) (h2 : ¬ Params f) : Vis (inner ++ [f]) e ↔ Vis inner e := by
  unfold Vis
  rw [hidden_snoc]
  simp only [h1, h2, false_and, or_false]
  refine or_congr_right (and_congr_right fun _ => ?_)
  constructor
  · rintro ⟨g, args, g2, outer, h, ho⟩
    cases inner with
    | nil => simp at h; exact absurd (by rw [h.1]; trivial) h1
    | cons a as =>
      simp at h; obtain ⟨rfl, rfl⟩ := h
      rw [hidden_snoc] at ho
      exact ⟨g, args, g2, as, rfl, fun hh => ho (Or.inl hh)⟩
  · rintro ⟨g, args, g2, outer, rfl, ho⟩
    exact ⟨g, args, g2, outer ++ [f], rfl, by rw [hidden_snoc]; simp [h1, h2, ho]⟩

theorem vis_callF {inner : List Frame} {g : Gap} {b : Br} {args : Node} {g2 : Gap} {e : Node} :
    Vis (inner ++ [.callF g b args g2]) e ↔ inner = [] ∧ b = .par ∧ isNs e = true := by
  unfold Vis
  rw [hidden_snoc]
  simp only [OnTheLeft, true_or, or_true, not_true, false_or]
  constructor
  · rintro ⟨hn, g, args, g2, outer, h, ho⟩
    cases inner with
    | nil => simp at h; exact ⟨rfl, h.1.2.1, hn⟩
    | cons a as =>
      simp at h; obtain ⟨rfl, rfl⟩ := h
      exact (ho ((hidden_snoc ..).mpr (Or.inr (Or.inl trivial)))).elim
  · rintro ⟨rfl, rfl, hn⟩
    exact ⟨hn, g, args, g2, [], rfl, hidden_nil⟩

theorem vis_ext {inner : List Frame} {g : Gap} {b : Bool} {g2 : Gap} {k : AKind} {s : Str} {e : Node} :
    ¬ Vis (inner ++ [.ext g b g2 k s]) e := by
  unfold Vis
  rw [hidden_snoc]
  simp only [OnTheLeft, true_or, or_true, not_true, false_or]
  rintro ⟨hn, g, args, g2, outer, h, ho⟩
  cases inner with
  | nil => simp at h
  | cons a as =>
    simp at h; obtain ⟨rfl, rfl⟩ := h
    exact (ho ((hidden_snoc ..).mpr (Or.inr (Or.inl trivial)))).elim

theorem vis_funcP {inner : List Frame} {g : Gap} {la : Bool} {g2 g3 : Gap} {b : Node} {e : Node} :
    Vis (inner ++ [.funcP g la g2 g3 b]) e ↔ Vis inner e ∧ InDefault inner := by
  unfold Vis
  rw [hidden_snoc]
  simp only [OnTheLeft, Params, true_and, false_or, not_or, Classical.not_not]
  constructor
  · rintro (⟨h1, h2⟩ | ⟨hn, g, args, g2, outer, h, ho⟩)
    · exact ⟨Or.inl h1, h2⟩
    · cases inner with
      | nil => simp at h
      | cons a as =>
        simp at h; obtain ⟨rfl, rfl⟩ := h
        rw [hidden_snoc] at ho
        simp only [OnTheLeft, Params, true_and, false_or, not_or, Classical.not_not] at ho
        exact ⟨Or.inr ⟨hn, g, args, g2, as, rfl, ho.1⟩, (inDefault_cons_callF ..).mpr ho.2⟩
  · rintro ⟨h1 | ⟨hn, g, args, g2, outer, rfl, ho⟩, h2⟩
    · exact Or.inl ⟨h1, h2⟩
    · rw [inDefault_cons_callF] at h2
      refine Or.inr ⟨hn, g, args, g2, outer ++ [_], rfl, ?_⟩
      rw [hidden_snoc]
      simp only [OnTheLeft, Params, true_and, false_or, not_or, Classical.not_not]
      exact ⟨ho, h2⟩

/-- The place `z` is in the node `n` at the place `fs`, and to be looked at. -/
def In (fs : List Frame) (n : Node) (z : Zip) : Prop :=
  ∃ inner, z.fs = inner ++ fs ∧ plug inner z.e = n ∧ isExpr z.e = true ∧ Vis inner z.e

/-- The same through the child of `n` in the frame `f`. -/
def Below (fs : List Frame) (z : Zip) (f : Frame) (n : Node) : Prop :=
  ∃ inner, z.fs = inner ++ f :: fs ∧ plug inner z.e = n ∧ isExpr z.e = true ∧ Vis (inner ++ [f]) z.e

theorem in_iff (fs : List Frame) (n : Node) (z : Zip) :
    In fs n z ↔ (z = ⟨fs, n⟩ ∧ isExpr n = true) ∨ ∃ f n', Frame.fill f n' = n ∧ Below fs z f n' := by
  constructor
  · rintro ⟨inner, h1, h2, h3, h4⟩
    rcases List.eq_nil_or_concat inner with rfl | ⟨i, f, rfl⟩
    · left
      obtain ⟨zf, ze⟩ := z
      simp [plug] at h1 h2; subst h1 h2
      exact ⟨rfl, h3⟩
    · right
      rw [List.concat_eq_append] at h1 h2 h4
      rw [plug_snoc] at h2
      exact ⟨f, _, h2, i, by simpa using h1, rfl, h3, h4⟩
  · rintro (⟨rfl, h⟩ | ⟨f, n', rfl, inner, h1, rfl, h3, h4⟩)
    · exact ⟨[], rfl, rfl, h, Or.inl hidden_nil⟩
    · exact ⟨inner ++ [f], by simpa using h1, plug_snoc .., h3, h4⟩

theorem below_iff {fs : List Frame} {z : Zip} {f : Frame} {n : Node} (h1 : ¬ OnTheLeft f) (h2 : ¬ Params f) : Below fs z f n ↔ In (f :: fs) n z := by
  unfold Below In
  simp only [vis_snoc h1 h2]

/-- Frames whose place is looked at. -/
def plainF : Frame → Bool
  | .callF .. | .ext .. | .funcP .. => false
  | _ => true

theorem below_plain {fs : List Frame} {z : Zip} {f : Frame} {n : Node} (h : plainF f = true) : Below fs z f n ↔ In (f :: fs) n z := by
  apply below_iff <;> (cases f <;> simp_all [plainF, OnTheLeft, Params])

theorem below_callF {fs : List Frame} {z : Zip} {g : Gap} {b : Br} {args : Node} {g2 : Gap} {n : Node} :
    Below fs z (.callF g b args g2) n ↔ z = ⟨.callF g b args g2 :: fs, n⟩ ∧ b = .par ∧ isNs n = true := by
  unfold Below
  simp only [vis_callF]
  constructor
  · rintro ⟨inner, h1, rfl, h3, rfl, h5, h6⟩
    obtain ⟨zf, ze⟩ := z
    simp at h1; subst h1
    exact ⟨rfl, h5, h6⟩
  · rintro ⟨rfl, h5, h6⟩
    refine ⟨[], rfl, rfl, ?_, rfl, h5, h6⟩
    revert h6; unfold isNs; split <;> simp [isExpr]

theorem below_ext {fs : List Frame} {z : Zip} {g : Gap} {b : Bool} {g2 : Gap} {k : AKind} {s : Str} {n : Node} :
    ¬ Below fs z (.ext g b g2 k s) n := by
  rintro ⟨_, _, _, _, h⟩; exact vis_ext h

/-- The place is in a default value in the parameters `n`. -/
def InP (fs : List Frame) (n : Node) (z : Zip) : Prop :=
  ∃ inner, z.fs = inner ++ fs ∧ plug inner z.e = n ∧ isExpr z.e = true ∧ Vis inner z.e ∧ InDefault inner

theorem below_funcP {fs : List Frame} {z : Zip} {g : Gap} {la : Bool} {g2 g3 : Gap} {b n : Node} :
    Below fs z (.funcP g la g2 g3 b) n ↔ InP (.funcP g la g2 g3 b :: fs) n z := by
  unfold Below InP
  simp only [vis_funcP]

/-- The same through the child of `n` in the frame `f`. -/
def BelowP (fs : List Frame) (z : Zip) (f : Frame) (n : Node) : Prop :=
  ∃ inner, z.fs = inner ++ f :: fs ∧ plug inner z.e = n ∧ isExpr z.e = true ∧ Vis (inner ++ [f]) z.e ∧
    ((∃ g k s g2, f = .named g k s g2) ∨ ((∃ g r, f = .commaA g r) ∨ ∃ a g, f = .commaR a g) ∧ InDefault inner)

theorem inP_iff (fs : List Frame) (n : Node) (z : Zip) :
    InP fs n z ↔ ∃ f n', Frame.fill f n' = n ∧ BelowP fs z f n' := by
  constructor
  · rintro ⟨inner, h1, h2, h3, h4, h5⟩
    rcases List.eq_nil_or_concat inner with rfl | ⟨i, f, rfl⟩
    · exact absurd h5 inDefault_nil
    · rw [List.concat_eq_append] at h1 h2 h4 h5
      rw [plug_snoc] at h2
      rw [inDefault_snoc] at h5
      exact ⟨f, _, h2, i, by simpa using h1, rfl, h3, h4, h5⟩
  · rintro ⟨f, n', rfl, inner, h1, rfl, h3, h4, h5⟩
    exact ⟨inner ++ [f], by simpa using h1, plug_snoc .., h3, h4, (inDefault_snoc ..).mpr h5⟩

theorem belowP_named {fs : List Frame} {z : Zip} {g : Gap} {k : AKind} {s : Str} {g2 : Gap} {n : Node} :
    BelowP fs z (.named g k s g2) n ↔ In (.named g k s g2 :: fs) n z := by
  unfold BelowP In
  have : ∀ inner e, Vis (inner ++ [.named g k s g2]) e ↔ Vis inner e := fun _ _ => vis_snoc (by simp [OnTheLeft]) (by simp [Params])
  simp [this]

theorem belowP_commaA {fs : List Frame} {z : Zip} {g : Gap} {r n : Node} : BelowP fs z (.commaA g r) n ↔ InP (.commaA g r :: fs) n z := by
  unfold BelowP InP
  have : ∀ inner e, Vis (inner ++ [.commaA g r]) e ↔ Vis inner e := fun _ _ => vis_snoc (by simp [OnTheLeft]) (by simp [Params])
  simp [this]

theorem belowP_commaR {fs : List Frame} {z : Zip} {g : Gap} {r n : Node} : BelowP fs z (.commaR r g) n ↔ InP (.commaR r g :: fs) n z := by
  unfold BelowP InP
  have : ∀ inner e, Vis (inner ++ [.commaR r g]) e ↔ Vis inner e := fun _ _ => vis_snoc (by simp [OnTheLeft]) (by simp [Params])
  simp [this]

theorem belowP_other {fs : List Frame} {z : Zip} {f : Frame} {n : Node} (h : BelowP fs z f n) :
    (∃ g k s g2, f = .named g k s g2) ∨ (∃ g r, f = .commaA g r) ∨ ∃ a g, f = .commaR a g := by
  obtain ⟨_, _, _, _, _, h | h⟩ := h
  · exact Or.inl h
  · exact Or.inr h.1

/-! The children of a node. -/

theorem fill_atom {P : Frame → Node → Prop} {g : Gap} {k : AKind} {s : Str} : (∃ f n', Frame.fill f n' = .atom g k s ∧ P f n') ↔ False := by
  simp only [iff_false, not_exists, not_and]
  intro f; cases f <;> simp [Frame.fill]
theorem fill_paren {P : Frame → Node → Prop} {g : Gap} {e : Node} {g2 : Gap} : (∃ f n', Frame.fill f n' = .paren g e g2 ∧ P f n') ↔ P (.paren g g2) e := by
  constructor
  · rintro ⟨f, n', h, hp⟩
    cases f <;> simp only [Frame.fill, reduceCtorEq, Node.paren.injEq] at h <;>
      (try simp only [h] at hp ⊢) <;> simp_all
  · rintro h <;> exact ⟨_, _, rfl, h⟩
theorem fill_braces {P : Frame → Node → Prop} {g : Gap} {e : Node} {g2 : Gap} : (∃ f n', Frame.fill f n' = .braces g e g2 ∧ P f n') ↔ P (.braces g g2) e := by
  constructor
  · rintro ⟨f, n', h, hp⟩
    cases f <;> simp only [Frame.fill, reduceCtorEq, Node.braces.injEq] at h <;>
      (try simp only [h] at hp ⊢) <;> simp_all
  · rintro h <;> exact ⟨_, _, rfl, h⟩
theorem fill_un {P : Frame → Node → Prop} {g : Gap} {o : Op} {e : Node} : (∃ f n', Frame.fill f n' = .un g o e ∧ P f n') ↔ P (.un g o) e := by
  constructor
  · rintro ⟨f, n', h, hp⟩
    cases f <;> simp only [Frame.fill, reduceCtorEq, Node.un.injEq] at h <;>
      (try simp only [h] at hp ⊢) <;> simp_all
  · rintro h <;> exact ⟨_, _, rfl, h⟩
theorem fill_bin {P : Frame → Node → Prop} {l : Node} {g : Gap} {o : Op} {r : Node} : (∃ f n', Frame.fill f n' = .bin l g o r ∧ P f n') ↔ P (.binL g o r) l ∨ P (.binR l g o) r := by
  constructor
  · rintro ⟨f, n', h, hp⟩
    cases f <;> simp only [Frame.fill, reduceCtorEq, Node.bin.injEq] at h <;>
      (try simp only [h] at hp ⊢) <;> simp_all
  · rintro (h | h) <;> exact ⟨_, _, rfl, h⟩
theorem fill_ext {P : Frame → Node → Prop} {l : Node} {g : Gap} {b : Bool} {g2 : Gap} {k : AKind} {s : Str} : (∃ f n', Frame.fill f n' = .ext l g b g2 k s ∧ P f n') ↔ P (.ext g b g2 k s) l := by
  constructor
  · rintro ⟨f, n', h, hp⟩
    cases f <;> simp only [Frame.fill, reduceCtorEq, Node.ext.injEq] at h <;>
      (try simp only [h] at hp ⊢) <;> simp_all
  · rintro h <;> exact ⟨_, _, rfl, h⟩
theorem fill_call {P : Frame → Node → Prop} {f : Node} {g : Gap} {b : Br} {a : Node} {g2 : Gap} : (∃ f' n', Frame.fill f' n' = .call f g b a g2 ∧ P f' n') ↔ P (.callF g b a g2) f ∨ P (.callA f g b g2) a := by
  constructor
  · rintro ⟨f, n', h, hp⟩
    cases f <;> simp only [Frame.fill, reduceCtorEq, Node.call.injEq] at h <;>
      (try simp only [h] at hp ⊢) <;> simp_all
  · rintro (h | h) <;> exact ⟨_, _, rfl, h⟩
theorem fill_func {P : Frame → Node → Prop} {g : Gap} {la : Bool} {g2 : Gap} {ps : Node} {g3 : Gap} {b : Node} : (∃ f n', Frame.fill f n' = .func g la g2 ps g3 b ∧ P f n') ↔ P (.funcP g la g2 g3 b) ps ∨ P (.funcB g la g2 ps g3) b := by
  constructor
  · rintro ⟨f, n', h, hp⟩
    cases f <;> simp only [Frame.fill, reduceCtorEq, Node.func.injEq] at h <;>
      (try simp only [h] at hp ⊢) <;> simp_all
  · rintro (h | h) <;> exact ⟨_, _, rfl, h⟩
theorem fill_ifE {P : Frame → Node → Prop} {g : Gap} {g2 : Gap} {c : Node} {g3 : Gap} {t : Node} : (∃ f n', Frame.fill f n' = .ifE g g2 c g3 t ∧ P f n') ↔ P (.ifC g g2 g3 t) c ∨ P (.ifT g g2 c g3) t := by
  constructor
  · rintro ⟨f, n', h, hp⟩
    cases f <;> simp only [Frame.fill, reduceCtorEq, Node.ifE.injEq] at h <;>
      (try simp only [h] at hp ⊢) <;> simp_all
  · rintro (h | h) <;> exact ⟨_, _, rfl, h⟩
theorem fill_ifElse {P : Frame → Node → Prop} {g : Gap} {g2 : Gap} {c : Node} {g3 : Gap} {t : Node} {g4 : Gap} {e : Node} : (∃ f n', Frame.fill f n' = .ifElse g g2 c g3 t g4 e ∧ P f n') ↔ P (.ieC g g2 g3 t g4 e) c ∨ P (.ieT g g2 c g3 g4 e) t ∨ P (.ieE g g2 c g3 t g4) e := by
  constructor
  · rintro ⟨f, n', h, hp⟩
    cases f <;> simp only [Frame.fill, reduceCtorEq, Node.ifElse.injEq] at h <;>
      (try simp only [h] at hp ⊢) <;> simp_all
  · rintro (h | h | h) <;> exact ⟨_, _, rfl, h⟩
theorem fill_whileE {P : Frame → Node → Prop} {g : Gap} {g2 : Gap} {c : Node} {g3 : Gap} {b : Node} : (∃ f n', Frame.fill f n' = .whileE g g2 c g3 b ∧ P f n') ↔ P (.whileC g g2 g3 b) c ∨ P (.whileB g g2 c g3) b := by
  constructor
  · rintro ⟨f, n', h, hp⟩
    cases f <;> simp only [Frame.fill, reduceCtorEq, Node.whileE.injEq] at h <;>
      (try simp only [h] at hp ⊢) <;> simp_all
  · rintro (h | h) <;> exact ⟨_, _, rfl, h⟩
theorem fill_forE {P : Frame → Node → Prop} {g : Gap} {g2 : Gap} {gv : Gap} {v : Str} {gi : Gap} {s : Node} {g3 : Gap} {b : Node} : (∃ f n', Frame.fill f n' = .forE g g2 gv v gi s g3 b ∧ P f n') ↔ P (.forS g g2 gv v gi g3 b) s ∨ P (.forB g g2 gv v gi s g3) b := by
  constructor
  · rintro ⟨f, n', h, hp⟩
    cases f <;> simp only [Frame.fill, reduceCtorEq, Node.forE.injEq] at h <;>
      (try simp only [h] at hp ⊢) <;> simp_all
  · rintro (h | h) <;> exact ⟨_, _, rfl, h⟩
theorem fill_repE {P : Frame → Node → Prop} {g : Gap} {b : Node} : (∃ f n', Frame.fill f n' = .repE g b ∧ P f n') ↔ P (.repE g) b := by
  constructor
  · rintro ⟨f, n', h, hp⟩
    cases f <;> simp only [Frame.fill, reduceCtorEq, Node.repE.injEq] at h <;>
      (try simp only [h] at hp ⊢) <;> simp_all
  · rintro h <;> exact ⟨_, _, rfl, h⟩
theorem fill_hole {P : Frame → Node → Prop}  : (∃ f n', Frame.fill f n' = .hole ∧ P f n') ↔ False := by
  simp only [iff_false, not_exists, not_and]
  intro f; cases f <;> simp [Frame.fill]
theorem fill_named {P : Frame → Node → Prop} {g : Gap} {k : AKind} {s : Str} {g2 : Gap} {e : Node} : (∃ f n', Frame.fill f n' = .named g k s g2 e ∧ P f n') ↔ P (.named g k s g2) e := by
  constructor
  · rintro ⟨f, n', h, hp⟩
    cases f <;> simp only [Frame.fill, reduceCtorEq, Node.named.injEq] at h <;>
      (try simp only [h] at hp ⊢) <;> simp_all
  · rintro h <;> exact ⟨_, _, rfl, h⟩
theorem fill_comma {P : Frame → Node → Prop} {a : Node} {g : Gap} {r : Node} : (∃ f n', Frame.fill f n' = .comma a g r ∧ P f n') ↔ P (.commaA g r) a ∨ P (.commaR a g) r := by
  constructor
  · rintro ⟨f, n', h, hp⟩
    cases f <;> simp only [Frame.fill, reduceCtorEq, Node.comma.injEq] at h <;>
      (try simp only [h] at hp ⊢) <;> simp_all
  · rintro (h | h) <;> exact ⟨_, _, rfl, h⟩
theorem fill_snil {P : Frame → Node → Prop}  : (∃ f n', Frame.fill f n' = .snil ∧ P f n') ↔ False := by
  simp only [iff_false, not_exists, not_and]
  intro f; cases f <;> simp [Frame.fill]
theorem fill_scons {P : Frame → Node → Prop} {e : Node} {ss : List Gap} {r : Node} : (∃ f n', Frame.fill f n' = .scons e ss r ∧ P f n') ↔ P (.sconsE ss r) e ∨ P (.sconsR e ss) r := by
  constructor
  · rintro ⟨f, n', h, hp⟩
    cases f <;> simp only [Frame.fill, reduceCtorEq, Node.scons.injEq] at h <;>
      (try simp only [h] at hp ⊢) <;> simp_all
  · rintro (h | h) <;> exact ⟨_, _, rfl, h⟩

mutual
theorem mem_visit (z : Zip) : ∀ (n : Node) (fs : List Frame), Look.node z ∈ visit fs n ↔ In fs n z
  | .atom g k s, fs => by
    rw [in_iff, fill_atom]
    try rw [below_funcP]
    repeat rw [below_plain rfl]
    simp [visit, isExpr]
  | .paren g e g2, fs => by
    rw [in_iff, fill_paren]
    try rw [below_funcP]
    repeat rw [below_plain rfl]
    simp [visit, isExpr, mem_visit z e]
  | .braces g e g2, fs => by
    rw [in_iff, fill_braces]
    try rw [below_funcP]
    repeat rw [below_plain rfl]
    simp [visit, isExpr, mem_visit z e]
  | .un g o e, fs => by
    rw [in_iff, fill_un]
    try rw [below_funcP]
    repeat rw [below_plain rfl]
    simp [visit, isExpr, mem_visit z e]
  | .bin l g o r, fs => by
    rw [in_iff, fill_bin]
    try rw [below_funcP]
    repeat rw [below_plain rfl]
    simp [visit, isExpr, mem_visit z l, mem_visit z r]
  | .func g la g2 ps g3 b, fs => by
    rw [in_iff, fill_func]
    try rw [below_funcP]
    repeat rw [below_plain rfl]
    simp [visit, isExpr, mem_params z ps, mem_visit z b]
  | .ifE g g2 c g3 t, fs => by
    rw [in_iff, fill_ifE]
    try rw [below_funcP]
    repeat rw [below_plain rfl]
    simp [visit, isExpr, mem_visit z c, mem_visit z t]
  | .ifElse g g2 c g3 t g4 e, fs => by
    rw [in_iff, fill_ifElse]
    try rw [below_funcP]
    repeat rw [below_plain rfl]
    simp [visit, isExpr, mem_visit z c, mem_visit z t, mem_visit z e]
  | .whileE g g2 c g3 b, fs => by
    rw [in_iff, fill_whileE]
    try rw [below_funcP]
    repeat rw [below_plain rfl]
    simp [visit, isExpr, mem_visit z c, mem_visit z b]
  | .forE g g2 gv v gi s g3 b, fs => by
    rw [in_iff, fill_forE]
    try rw [below_funcP]
    repeat rw [below_plain rfl]
    simp [visit, isExpr, mem_visit z s, mem_visit z b]
  | .repE g b, fs => by
    rw [in_iff, fill_repE]
    try rw [below_funcP]
    repeat rw [below_plain rfl]
    simp [visit, isExpr, mem_visit z b]
  | .hole, fs => by
    rw [in_iff, fill_hole]
    try rw [below_funcP]
    repeat rw [below_plain rfl]
    simp [visit, isExpr]
  | .named g k s g2 e, fs => by
    rw [in_iff, fill_named]
    try rw [below_funcP]
    repeat rw [below_plain rfl]
    simp [visit, isExpr, mem_visit z e]
  | .comma a g r, fs => by
    rw [in_iff, fill_comma]
    try rw [below_funcP]
    repeat rw [below_plain rfl]
    simp [visit, isExpr, mem_visit z a, mem_visit z r]
  | .snil, fs => by
    rw [in_iff, fill_snil]
    try rw [below_funcP]
    repeat rw [below_plain rfl]
    simp [visit, isExpr]
  | .scons e ss r, fs => by
    rw [in_iff, fill_scons]
    try rw [below_funcP]
    repeat rw [below_plain rfl]
    simp [visit, isExpr, mem_visit z e, mem_visit z r]
  | .ext l g b g2 k s, fs => by
    rw [in_iff, fill_ext]
    simp [visit, isExpr, below_ext]
  | .call f g b a g2, fs => by
    rw [in_iff, fill_call]
    rw [below_callF, below_plain rfl]
    have h := mem_visit z a
    simp only [visit, List.mem_cons, List.mem_append, h, isExpr, and_true, Look.node.injEq]
    refine or_congr_right (or_congr_left ?_)
    by_cases hb : b = .par ∧ isNs f = true
    · rw [if_pos hb]; simp [hb.1, hb.2]
    · rw [if_neg hb]; simp only [List.not_mem_nil, false_iff]; exact fun h => hb h.2
theorem mem_params (z : Zip) : ∀ (n : Node) (fs : List Frame), Look.node z ∈ visitParams fs n ↔ InP fs n z
  | .comma a g r, fs => by
    rw [inP_iff, fill_comma, belowP_commaA, belowP_commaR]
    simp [visitParams, mem_params z a, mem_params z r]
  | .named g k s g2 e, fs => by
    rw [inP_iff, fill_named, belowP_named]
    simp [visitParams, mem_visit z e]
  | .atom x0 x1 x2, fs => by
    simp only [visitParams, List.not_mem_nil, false_iff]
    rw [inP_iff, fill_atom]
    first | exact not_false | (rintro (h | h | h) <;> simpa using belowP_other h) | (rintro (h | h) <;> simpa using belowP_other h) | (intro h; simpa using belowP_other h)
  | .paren x0 x1 x2, fs => by
    simp only [visitParams, List.not_mem_nil, false_iff]
    rw [inP_iff, fill_paren]
    first | exact not_false | (rintro (h | h | h) <;> simpa using belowP_other h) | (rintro (h | h) <;> simpa using belowP_other h) | (intro h; simpa using belowP_other h)
  | .braces x0 x1 x2, fs => by
    simp only [visitParams, List.not_mem_nil, false_iff]
    rw [inP_iff, fill_braces]
    first | exact not_false | (rintro (h | h | h) <;> simpa using belowP_other h) | (rintro (h | h) <;> simpa using belowP_other h) | (intro h; simpa using belowP_other h)
  | .un x0 x1 x2, fs => by
    simp only [visitParams, List.not_mem_nil, false_iff]
    rw [inP_iff, fill_un]
    first | exact not_false | (rintro (h | h | h) <;> simpa using belowP_other h) | (rintro (h | h) <;> simpa using belowP_other h) | (intro h; simpa using belowP_other h)
  | .bin x0 x1 x2 x3, fs => by
    simp only [visitParams, List.not_mem_nil, false_iff]
    rw [inP_iff, fill_bin]
    first | exact not_false | (rintro (h | h | h) <;> simpa using belowP_other h) | (rintro (h | h) <;> simpa using belowP_other h) | (intro h; simpa using belowP_other h)
  | .ext x0 x1 x2 x3 x4 x5, fs => by
    simp only [visitParams, List.not_mem_nil, false_iff]
    rw [inP_iff, fill_ext]
    first | exact not_false | (rintro (h | h | h) <;> simpa using belowP_other h) | (rintro (h | h) <;> simpa using belowP_other h) | (intro h; simpa using belowP_other h)
  | .call x0 x1 x2 x3 x4, fs => by
    simp only [visitParams, List.not_mem_nil, false_iff]
    rw [inP_iff, fill_call]
    first | exact not_false | (rintro (h | h | h) <;> simpa using belowP_other h) | (rintro (h | h) <;> simpa using belowP_other h) | (intro h; simpa using belowP_other h)
  | .func x0 x1 x2 x3 x4 x5, fs => by
    simp only [visitParams, List.not_mem_nil, false_iff]
    rw [inP_iff, fill_func]
    first | exact not_false | (rintro (h | h | h) <;> simpa using belowP_other h) | (rintro (h | h) <;> simpa using belowP_other h) | (intro h; simpa using belowP_other h)
  | .ifE x0 x1 x2 x3 x4, fs => by
    simp only [visitParams, List.not_mem_nil, false_iff]
    rw [inP_iff, fill_ifE]
    first | exact not_false | (rintro (h | h | h) <;> simpa using belowP_other h) | (rintro (h | h) <;> simpa using belowP_other h) | (intro h; simpa using belowP_other h)
  | .ifElse x0 x1 x2 x3 x4 x5 x6, fs => by
    simp only [visitParams, List.not_mem_nil, false_iff]
    rw [inP_iff, fill_ifElse]
    first | exact not_false | (rintro (h | h | h) <;> simpa using belowP_other h) | (rintro (h | h) <;> simpa using belowP_other h) | (intro h; simpa using belowP_other h)
  | .whileE x0 x1 x2 x3 x4, fs => by
    simp only [visitParams, List.not_mem_nil, false_iff]
    rw [inP_iff, fill_whileE]
    first | exact not_false | (rintro (h | h | h) <;> simpa using belowP_other h) | (rintro (h | h) <;> simpa using belowP_other h) | (intro h; simpa using belowP_other h)
  | .forE x0 x1 x2 x3 x4 x5 x6 x7, fs => by
    simp only [visitParams, List.not_mem_nil, false_iff]
    rw [inP_iff, fill_forE]
    first | exact not_false | (rintro (h | h | h) <;> simpa using belowP_other h) | (rintro (h | h) <;> simpa using belowP_other h) | (intro h; simpa using belowP_other h)
  | .repE x0 x1, fs => by
    simp only [visitParams, List.not_mem_nil, false_iff]
    rw [inP_iff, fill_repE]
    first | exact not_false | (rintro (h | h | h) <;> simpa using belowP_other h) | (rintro (h | h) <;> simpa using belowP_other h) | (intro h; simpa using belowP_other h)
  | .hole , fs => by
    simp only [visitParams, List.not_mem_nil, false_iff]
    rw [inP_iff, fill_hole]
    first | exact not_false | (rintro (h | h | h) <;> simpa using belowP_other h) | (rintro (h | h) <;> simpa using belowP_other h) | (intro h; simpa using belowP_other h)
  | .snil , fs => by
    simp only [visitParams, List.not_mem_nil, false_iff]
    rw [inP_iff, fill_snil]
    first | exact not_false | (rintro (h | h | h) <;> simpa using belowP_other h) | (rintro (h | h) <;> simpa using belowP_other h) | (intro h; simpa using belowP_other h)
  | .scons x0 x1 x2, fs => by
    simp only [visitParams, List.not_mem_nil, false_iff]
    rw [inP_iff, fill_scons]
    first | exact not_false | (rintro (h | h | h) <;> simpa using belowP_other h) | (rintro (h | h) <;> simpa using belowP_other h) | (intro h; simpa using belowP_other h)
end

mutual
theorem mem_loopVar (z : Zip) : ∀ (n : Node) (fs : List Frame), Look.loopVar z ∈ visit fs n ↔ Look.node z ∈ visit fs n ∧ isFor z.e = true
  | .atom g k s, fs => by
    simp only [visit, List.mem_cons, List.mem_append, List.not_mem_nil, reduceCtorEq, false_or, or_false, false_and, Look.node.injEq, Look.loopVar.injEq]
    constructor
    · intro h; simp_all [isFor] <;> grind
    · rintro ⟨h, hf⟩
      by_cases hz : z = ⟨fs, .atom g k s⟩
      · subst hz; simp_all [isFor]
      · simp_all
  | .ext l g b g2 k s, fs => by
    simp only [visit, List.mem_cons, List.mem_append, List.not_mem_nil, reduceCtorEq, false_or, or_false, false_and, Look.node.injEq, Look.loopVar.injEq]
    constructor
    · intro h; simp_all [isFor] <;> grind
    · rintro ⟨h, hf⟩
      by_cases hz : z = ⟨fs, .ext l g b g2 k s⟩
      · subst hz; simp_all [isFor]
      · simp_all
  | .paren g e g2, fs => by
    simp only [visit, List.mem_cons, List.mem_append, List.not_mem_nil, reduceCtorEq, false_or, or_false, false_and, Look.node.injEq, Look.loopVar.injEq, mem_loopVar z e]
    constructor
    · intro h; simp_all [isFor] <;> grind
    · rintro ⟨h, hf⟩
      by_cases hz : z = ⟨fs, .paren g e g2⟩
      · subst hz; simp_all [isFor]
      · simp_all
  | .braces g e g2, fs => by
    simp only [visit, List.mem_cons, List.mem_append, List.not_mem_nil, reduceCtorEq, false_or, or_false, false_and, Look.node.injEq, Look.loopVar.injEq, mem_loopVar z e]
    constructor
    · intro h; simp_all [isFor] <;> grind
    · rintro ⟨h, hf⟩
      by_cases hz : z = ⟨fs, .braces g e g2⟩
      · subst hz; simp_all [isFor]
      · simp_all
  | .un g o e, fs => by
    simp only [visit, List.mem_cons, List.mem_append, List.not_mem_nil, reduceCtorEq, false_or, or_false, false_and, Look.node.injEq, Look.loopVar.injEq, mem_loopVar z e]
    constructor
    · intro h; simp_all [isFor] <;> grind
    · rintro ⟨h, hf⟩
      by_cases hz : z = ⟨fs, .un g o e⟩
      · subst hz; simp_all [isFor]
      · simp_all
  | .bin l g o r, fs => by
    simp only [visit, List.mem_cons, List.mem_append, List.not_mem_nil, reduceCtorEq, false_or, or_false, false_and, Look.node.injEq, Look.loopVar.injEq, mem_loopVar z l, mem_loopVar z r]
    constructor
    · intro h; simp_all [isFor] <;> grind
    · rintro ⟨h, hf⟩
      by_cases hz : z = ⟨fs, .bin l g o r⟩
      · subst hz; simp_all [isFor]
      · simp_all
  | .func g la g2 ps g3 b, fs => by
    simp only [visit, List.mem_cons, List.mem_append, List.not_mem_nil, reduceCtorEq, false_or, or_false, false_and, Look.node.injEq, Look.loopVar.injEq, mem_loopParams z ps, mem_loopVar z b]
    constructor
    · intro h; simp_all [isFor] <;> grind
    · rintro ⟨h, hf⟩
      by_cases hz : z = ⟨fs, .func g la g2 ps g3 b⟩
      · subst hz; simp_all [isFor]
      · simp_all
  | .ifE g g2 c g3 t, fs => by
    simp only [visit, List.mem_cons, List.mem_append, List.not_mem_nil, reduceCtorEq, false_or, or_false, false_and, Look.node.injEq, Look.loopVar.injEq, mem_loopVar z c, mem_loopVar z t]
    constructor
    · intro h; simp_all [isFor] <;> grind
    · rintro ⟨h, hf⟩
      by_cases hz : z = ⟨fs, .ifE g g2 c g3 t⟩
      · subst hz; simp_all [isFor]
      · simp_all
  | .ifElse g g2 c g3 t g4 e, fs => by
    simp only [visit, List.mem_cons, List.mem_append, List.not_mem_nil, reduceCtorEq, false_or, or_false, false_and, Look.node.injEq, Look.loopVar.injEq, mem_loopVar z c, mem_loopVar z t, mem_loopVar z e]
    constructor
    · intro h; simp_all [isFor] <;> grind
    · rintro ⟨h, hf⟩
      by_cases hz : z = ⟨fs, .ifElse g g2 c g3 t g4 e⟩
      · subst hz; simp_all [isFor]
      · simp_all
  | .whileE g g2 c g3 b, fs => by
    simp only [visit, List.mem_cons, List.mem_append, List.not_mem_nil, reduceCtorEq, false_or, or_false, false_and, Look.node.injEq, Look.loopVar.injEq, mem_loopVar z c, mem_loopVar z b]
    constructor
    · intro h; simp_all [isFor] <;> grind
    · rintro ⟨h, hf⟩
      by_cases hz : z = ⟨fs, .whileE g g2 c g3 b⟩
      · subst hz; simp_all [isFor]
      · simp_all
  | .forE g g2 gv v gi s g3 b, fs => by
    simp only [visit, List.mem_cons, List.mem_append, List.not_mem_nil, reduceCtorEq, false_or, or_false, false_and, Look.node.injEq, Look.loopVar.injEq, mem_loopVar z s, mem_loopVar z b]
    constructor
    · intro h; simp_all [isFor] <;> grind
    · rintro ⟨h, hf⟩
      by_cases hz : z = ⟨fs, .forE g g2 gv v gi s g3 b⟩
      · subst hz; simp_all [isFor]
      · simp_all
  | .repE g b, fs => by
    simp only [visit, List.mem_cons, List.mem_append, List.not_mem_nil, reduceCtorEq, false_or, or_false, false_and, Look.node.injEq, Look.loopVar.injEq, mem_loopVar z b]
    constructor
    · intro h; simp_all [isFor] <;> grind
    · rintro ⟨h, hf⟩
      by_cases hz : z = ⟨fs, .repE g b⟩
      · subst hz; simp_all [isFor]
      · simp_all
  | .hole, fs => by
    simp only [visit, List.mem_cons, List.mem_append, List.not_mem_nil, reduceCtorEq, false_or, or_false, false_and, Look.node.injEq, Look.loopVar.injEq]
  | .named g k s g2 e, fs => by
    simp only [visit, List.mem_cons, List.mem_append, List.not_mem_nil, reduceCtorEq, false_or, or_false, false_and, Look.node.injEq, Look.loopVar.injEq, mem_loopVar z e]
  | .comma a g r, fs => by
    simp only [visit, List.mem_cons, List.mem_append, List.not_mem_nil, reduceCtorEq, false_or, or_false, false_and, Look.node.injEq, Look.loopVar.injEq, mem_loopVar z a, mem_loopVar z r]
    grind
  | .snil, fs => by
    simp only [visit, List.mem_cons, List.mem_append, List.not_mem_nil, reduceCtorEq, false_or, or_false, false_and, Look.node.injEq, Look.loopVar.injEq]
  | .scons e ss r, fs => by
    simp only [visit, List.mem_cons, List.mem_append, List.not_mem_nil, reduceCtorEq, false_or, or_false, false_and, Look.node.injEq, Look.loopVar.injEq, mem_loopVar z e, mem_loopVar z r]
    grind
  | .call f g b a g2, fs => by
    have h := mem_loopVar z a
    simp only [visit, List.mem_cons, List.mem_append, h]
    by_cases hb : b = .par ∧ isNs f = true
    · rw [if_pos hb]; simp
      intro hf
      refine ⟨fun h => Or.inr (Or.inr h), ?_⟩
      rintro (h | h | h)
      · subst h; simp [isFor] at hf
      · subst h; exact absurd hb.2 (by revert hf; unfold isFor; split <;> simp_all [isNs])
      · exact h
    · rw [if_neg hb]; simp
      rintro hf h; subst h; simp [isFor] at hf
theorem mem_loopParams (z : Zip) : ∀ (n : Node) (fs : List Frame), Look.loopVar z ∈ visitParams fs n ↔ Look.node z ∈ visitParams fs n ∧ isFor z.e = true
  | .comma a g r, fs => by
    simp only [visitParams, List.mem_append, mem_loopParams z a, mem_loopParams z r]; grind
  | .named g k s g2 e, fs => by
    simp only [visitParams, mem_loopVar z e]
  | .atom x0 x1 x2, fs => by simp [visitParams]
  | .paren x0 x1 x2, fs => by simp [visitParams]
  | .braces x0 x1 x2, fs => by simp [visitParams]
  | .un x0 x1 x2, fs => by simp [visitParams]
  | .bin x0 x1 x2 x3, fs => by simp [visitParams]
  | .ext x0 x1 x2 x3 x4 x5, fs => by simp [visitParams]
  | .call x0 x1 x2 x3 x4, fs => by simp [visitParams]
  | .func x0 x1 x2 x3 x4 x5, fs => by simp [visitParams]
  | .ifE x0 x1 x2 x3 x4, fs => by simp [visitParams]
  | .ifElse x0 x1 x2 x3 x4 x5 x6, fs => by simp [visitParams]
  | .whileE x0 x1 x2 x3 x4, fs => by simp [visitParams]
  | .forE x0 x1 x2 x3 x4 x5 x6 x7, fs => by simp [visitParams]
  | .repE x0 x1, fs => by simp [visitParams]
  | .hole , fs => by simp [visitParams]
  | .snil , fs => by simp [visitParams]
  | .scons x0 x1 x2, fs => by simp [visitParams]
end

/-- Where something looked at is. -/
def Look.place : Look → List Frame
  | .node z => z.fs
  | .loopVar z => z.fs

/-- In the place `fs`, or inside of it. -/
def Under (fs : List Frame) (v : Look) : Prop := ∃ inner, v.place = inner ++ fs

theorem visit_under (n : Node) (fs : List Frame) : ∀ v ∈ visit fs n, Under fs v := by
  intro v hv
  cases v with
  | node z => obtain ⟨i, h, _⟩ := (mem_visit z n fs).mp hv; exact ⟨i, h⟩
  | loopVar z => obtain ⟨i, h, _⟩ := (mem_visit z n fs).mp ((mem_loopVar z n fs).mp hv).1; exact ⟨i, h⟩

theorem params_under (n : Node) (fs : List Frame) : ∀ v ∈ visitParams fs n, Under fs v := by
  intro v hv
  cases v with
  | node z => obtain ⟨i, h, _⟩ := (mem_params z n fs).mp hv; exact ⟨i, h⟩
  | loopVar z => obtain ⟨i, h, _⟩ := (mem_params z n fs).mp ((mem_loopParams z n fs).mp hv).1; exact ⟨i, h⟩

theorem under_ne {f f' : Frame} {fs : List Frame} {v w : Look} (h : Under (f :: fs) v) (h' : Under (f' :: fs) w) (hne : f ≠ f') : v ≠ w := by
  rintro rfl
  obtain ⟨i, h⟩ := h
  obtain ⟨i', h'⟩ := h'
  rw [h] at h'
  have := (List.append_inj' h' rfl).2
  simp at this
  exact hne this

theorem under_root {f : Frame} {fs : List Frame} {v : Look} (h : Under (f :: fs) v) : v.place ≠ fs := by
  obtain ⟨i, h⟩ := h
  intro hc
  rw [hc] at h
  have := congrArg List.length h
  simp at this
  omega

theorem nodup_two {f f' : Frame} {fs : List Frame} {as bs : List Look} (ha : as.Nodup) (hb : bs.Nodup) (ua : ∀ v ∈ as, Under (f :: fs) v)
    (ub : ∀ v ∈ bs, Under (f' :: fs) v) (hne : f ≠ f') : (as ++ bs).Nodup :=
  List.nodup_append.mpr ⟨ha, hb, fun v hv w hw => under_ne (ua v hv) (ub w hw) hne⟩

theorem nodup_root {n : Node} {fs : List Frame} {as : List Look} (ha : as.Nodup) (ua : ∀ v ∈ as, v.place ≠ fs) : (Look.node ⟨fs, n⟩ :: as).Nodup :=
  List.nodup_cons.mpr ⟨fun h => ua _ h rfl, ha⟩

theorem place_ne {f : Frame} {fs : List Frame} {as : List Look} (h : ∀ v ∈ as, Under (f :: fs) v) : ∀ v ∈ as, v.place ≠ fs := fun v hv => under_root (h v hv)

theorem place_two {fs : List Frame} {as bs : List Look} (ha : ∀ v ∈ as, v.place ≠ fs) (hb : ∀ v ∈ bs, v.place ≠ fs) : ∀ v ∈ as ++ bs, v.place ≠ fs :=
  fun v hv => (List.mem_append.mp hv).elim (ha v) (hb v)

mutual
theorem visit_nodup : ∀ (n : Node) (fs : List Frame), (visit fs n).Nodup
  | .atom g k s, fs => by
    simp [visit]
  | .ext l g b g2 k s, fs => by
    simp [visit]
  | .paren g e g2, fs => by
    rw [visit]; exact nodup_root (visit_nodup e _) (place_ne (visit_under e _))
  | .braces g e g2, fs => by
    rw [visit]; exact nodup_root (visit_nodup e _) (place_ne (visit_under e _))
  | .un g o e, fs => by
    rw [visit]; exact nodup_root (visit_nodup e _) (place_ne (visit_under e _))
  | .bin l g o r, fs => by
    rw [visit]; exact nodup_root (nodup_two (visit_nodup l _) (visit_nodup r _) (visit_under l _) (visit_under r _) (by simp)) (place_two (place_ne (visit_under l _)) (place_ne (visit_under r _)))
  | .func g la g2 ps g3 b, fs => by
    rw [visit]; exact nodup_root (nodup_two (params_nodup ps _) (visit_nodup b _) (params_under ps _) (visit_under b _) (by simp)) (place_two (place_ne (params_under ps _)) (place_ne (visit_under b _)))
  | .ifE g g2 c g3 t, fs => by
    rw [visit]; exact nodup_root (nodup_two (visit_nodup c _) (visit_nodup t _) (visit_under c _) (visit_under t _) (by simp)) (place_two (place_ne (visit_under c _)) (place_ne (visit_under t _)))
  | .ifElse g g2 c g3 t g4 e, fs => by
    rw [visit]
    refine nodup_root (List.nodup_append.mpr ⟨visit_nodup c _, nodup_two (visit_nodup t _) (visit_nodup e _) (visit_under t _) (visit_under e _) (by simp), fun v hv w hw => ?_⟩)
      (place_two (place_ne (visit_under c _)) (place_two (place_ne (visit_under t _)) (place_ne (visit_under e _))))
    rcases List.mem_append.mp hw with h | h
    · exact under_ne (visit_under c _ v hv) (visit_under t _ w h) (by simp)
    · exact under_ne (visit_under c _ v hv) (visit_under e _ w h) (by simp)
  | .whileE g g2 c g3 b, fs => by
    rw [visit]; exact nodup_root (nodup_two (visit_nodup c _) (visit_nodup b _) (visit_under c _) (visit_under b _) (by simp)) (place_two (place_ne (visit_under c _)) (place_ne (visit_under b _)))
  | .forE g g2 gv v gi s g3 b, fs => by
    rw [visit]
    have h2 := nodup_two (visit_nodup s (.forS g g2 gv v gi g3 b :: fs)) (visit_nodup b (.forB g g2 gv v gi s g3 :: fs)) (visit_under s _) (visit_under b _) (by simp)
    have h3 := place_two (place_ne (visit_under s (.forS g g2 gv v gi g3 b :: fs))) (place_ne (visit_under b (.forB g g2 gv v gi s g3 :: fs)))
    refine List.nodup_cons.mpr ⟨fun h => ?_, List.nodup_cons.mpr ⟨fun h => h3 _ h rfl, h2⟩⟩
    rcases List.mem_cons.mp h with h | h
    · simp at h
    · exact h3 _ h rfl
  | .repE g b, fs => by
    rw [visit]; exact nodup_root (visit_nodup b _) (place_ne (visit_under b _))
  | .hole, fs => by
    simp [visit]
  | .named g k s g2 e, fs => by
    rw [visit]; exact (visit_nodup e _)
  | .comma a g r, fs => by
    rw [visit]; exact nodup_two (visit_nodup a _) (visit_nodup r _) (visit_under a _) (visit_under r _) (by simp)
  | .snil, fs => by
    simp [visit]
  | .scons e ss r, fs => by
    rw [visit]; exact nodup_two (visit_nodup e _) (visit_nodup r _) (visit_under e _) (visit_under r _) (by simp)
  | .call f g b a g2, fs => by
    rw [visit]
    have hu : ∀ v ∈ (if b = .par ∧ isNs f = true then [Look.node ⟨.callF g b a g2 :: fs, f⟩] else []), Under (.callF g b a g2 :: fs) v := by
      intro v hv
      split at hv
      · simp at hv; subst hv; exact ⟨[], rfl⟩
      · simp at hv
    refine nodup_root (nodup_two ?_ (visit_nodup a _) hu (visit_under a _) (by simp)) (place_two (place_ne hu) (place_ne (visit_under a _)))
    split <;> simp
theorem params_nodup : ∀ (n : Node) (fs : List Frame), (visitParams fs n).Nodup
  | .comma a g r, fs => by
    rw [visitParams]; exact nodup_two (params_nodup a _) (params_nodup r _) (params_under a _) (params_under r _) (by simp)
  | .named g k s g2 e, fs => by rw [visitParams]; exact visit_nodup e _
  | .atom x0 x1 x2, fs => by simp [visitParams]
  | .paren x0 x1 x2, fs => by simp [visitParams]
  | .braces x0 x1 x2, fs => by simp [visitParams]
  | .un x0 x1 x2, fs => by simp [visitParams]
  | .bin x0 x1 x2 x3, fs => by simp [visitParams]
  | .ext x0 x1 x2 x3 x4 x5, fs => by simp [visitParams]
  | .call x0 x1 x2 x3 x4, fs => by simp [visitParams]
  | .func x0 x1 x2 x3 x4 x5, fs => by simp [visitParams]
  | .ifE x0 x1 x2 x3 x4, fs => by simp [visitParams]
  | .ifElse x0 x1 x2 x3 x4 x5 x6, fs => by simp [visitParams]
  | .whileE x0 x1 x2 x3 x4, fs => by simp [visitParams]
  | .forE x0 x1 x2 x3 x4 x5 x6 x7, fs => by simp [visitParams]
  | .repE x0 x1, fs => by simp [visitParams]
  | .hole , fs => by simp [visitParams]
  | .snil , fs => by simp [visitParams]
  | .scons x0 x1 x2, fs => by simp [visitParams]
end

/-! ## C53: which code is checked -/

/-- The rules look at exactly these parts of a program: all expressions outside of the functions of calls and of the objects of `[`, `[[`, `$` and `@`, and
outside of parameter names. -/
theorem C53_looked_at (p : Node) (z : Zip) : Look.node z ∈ visits p ↔ LookedAt p z := by
  rw [visits, mem_visit]
  unfold In LookedAt Vis NsCallee Zip.prog
  simp

/-- And the variables of the loops they look at. -/
theorem C53_loop_variables (p : Node) (z : Zip) : Look.loopVar z ∈ visits p ↔ LookedAt p z ∧ isFor z.e = true := by
  rw [visits, mem_loopVar, ← visits, C53_looked_at]

/-- They look at everything once, so nothing is reported twice. -/
theorem C53_once (p : Node) : (visits p).Nodup := visit_nodup p []

/-- No rule is called twice. -/
theorem C53_rules_once (v : Look) : (rulesAt v).Nodup := by
  unfold rulesAt
  split
  · decide
  · split <;> decide

end Jarl

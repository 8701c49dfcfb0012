import Verif.Props.RReportsCond
import Verif.Props.RVisit
/-!
# C55: implicit assignments and the variables of loops
-/
namespace Jarl
open Spec

theorem ancestorIs_iff {p : Frame → Bool} {P : Frame → Prop} (hp : ∀ f, p f = true ↔ P f) (hb : ∀ g g2, p (.braces g g2) = false) {fs} :
    ancestorIs p fs = true ↔ Within P fs := by
  induction fs with
  | nil => simp [ancestorIs, Within]
  | cons f fs ih =>
    by_cases hf : ∃ g g2, f = .braces g g2
    · obtain ⟨g, g2, rfl⟩ := hf
      simp only [ancestorIs, Bool.false_eq_true, false_iff]
      rintro ⟨inner, f, outer, h, hP, hin⟩
      cases inner with
      | nil => injection h with h; subst h; rw [← hp, hb] at hP; cases hP
      | cons b inner => injection h with h; exact hin b (by simp) _ _ h.symm
    · have he : ancestorIs p (f :: fs) = (p f || ancestorIs p fs) := by
        cases f <;> first | rfl | exact absurd ⟨_, _, rfl⟩ hf
      rw [he, Bool.or_eq_true, hp, ih]
      constructor
      · rintro (h | ⟨inner, f', outer, rfl, hP, hin⟩)
        · exact ⟨[], f, fs, rfl, h, by simp⟩
        · refine ⟨f :: inner, f', outer, rfl, hP, ?_⟩
          intro b hb' g g2 e
          rcases List.mem_cons.mp hb' with rfl | hb'
          · exact hf ⟨_, _, e⟩
          · exact hin b hb' _ _ e
      · rintro ⟨inner, f', outer, h, hP, hin⟩
        cases inner with
        | nil => injection h with h1 h2; subst h1; exact Or.inl hP
        | cons b inner =>
          injection h with h1 h2; subst h2
          exact Or.inr ⟨inner, f', outer, rfl, hP, fun b hb => hin b (by simp [hb])⟩

theorem isArg_iff (f : Frame) : f.isArg = true ↔ ArgPlace f := by cases f <;> simp [Frame.isArg, ArgPlace]
theorem isIf_iff (f : Frame) : f.isIf = true ↔ IfCond f ∨ IfBody f := by cases f <;> simp [Frame.isIf, IfCond, IfBody]
theorem isWhile_iff (f : Frame) : f.isWhile = true ↔ WhileCond f ∨ WhileBody f := by cases f <;> simp [Frame.isWhile, WhileCond, WhileBody]
theorem isFor_iff (f : Frame) : f.isFor = true ↔ ∃ v, ForSeq v f ∨ ForBody v f := by cases f <;> simp [Frame.isFor, ForSeq, ForBody]

theorem isIfBody_iff {fs} : isIfBody fs = true ↔ Directly IfBody fs := by
  cases fs with
  | nil => simp [isIfBody, Directly]
  | cons f fs => cases f <;> simp [isIfBody, Directly, IfBody]

theorem isWhileBody_iff {fs} : isWhileBody fs = true ↔ Directly WhileBody fs := by
  cases fs with
  | nil => simp [isWhileBody, Directly]
  | cons f fs => cases f <;> simp [isWhileBody, Directly, WhileBody]

theorem isForBody_iff {fs} : isForBody fs = true ↔ Directly (fun f => ∃ v, ForBody v f) fs := by
  cases fs with
  | nil => simp [isForBody, Directly]
  | cons f fs => cases f <;> simp [isForBody, Directly, ForBody]

theorem inIf_iff {fs} : (!isIfBody fs && ancestorIs Frame.isIf fs) = true ↔ InIf fs := by
  rw [Bool.and_eq_true, ancestorIs_iff isIf_iff (fun _ _ => rfl), Bool.not_eq_true', ← Bool.not_eq_true, isIfBody_iff, InIf, and_comm]

theorem inWhile_iff {fs} : (!isWhileBody fs && ancestorIs Frame.isWhile fs) = true ↔ InWhile fs := by
  rw [Bool.and_eq_true, ancestorIs_iff isWhile_iff (fun _ _ => rfl), Bool.not_eq_true', ← Bool.not_eq_true, isWhileBody_iff, InWhile, and_comm]

theorem inFor_iff {fs} : (!isForBody fs && ancestorIs Frame.isFor fs) = true ↔ InFor fs := by
  rw [Bool.and_eq_true, ancestorIs_iff isFor_iff (fun _ _ => rfl), Bool.not_eq_true', ← Bool.not_eq_true, isForBody_iff, InFor, and_comm]

theorem inArg_iff {fs} : ancestorIs Frame.isArg fs = true ↔ InArg fs := ancestorIs_iff isArg_iff (fun _ _ => rfl)

/-- A frame of a call with parentheses. -/
def callFrame : Frame → Bool
  | .callA _ _ .par _ | .callF _ .par _ _ => true
  | _ => false

theorem callFrame_false {f} : callFrame f = false ↔ (∀ h g g2, f ≠ .callA h g .par g2) ∧ ∀ g as g2, f ≠ .callF g .par as g2 := by
  cases f <;> simp [callFrame]
  case callF g b as g2 => cases b <;> simp
  case callA h g b g2 => cases b <;> simp

theorem nearestCall_iff {fs e n} : nearestCall fs e = some n ↔ InCallOf n ⟨fs, e⟩ := by
  induction fs generalizing e with
  | nil => simp [nearestCall, InCallOf]
  | cons f fs ih =>
    by_cases hf : callFrame f = true
    · constructor
      · intro h
        refine ⟨[], f, fs, rfl, by simp, ?_⟩
        cases f with
        | callF g b as g2 => cases b with
          | par => injection h with h; exact Or.inr ⟨_, _, _, rfl, h⟩
          | _ => cases hf
        | callA k g b g2 => cases b with
          | par => injection h with h; exact Or.inl ⟨_, _, _, rfl, h⟩
          | _ => cases hf
        | _ => cases hf
      · rintro ⟨inner, f', outer, h, hin, hn⟩
        cases inner with
        | cons b inner =>
          exfalso
          injection h with h1 h2
          have := callFrame_false.mpr (hin b (by simp))
          rw [← h1, hf] at this
          cases this
        | nil =>
          injection h with h1 h2
          rw [h1]
          rcases hn with ⟨_, _, _, rfl, rfl⟩ | ⟨_, _, _, rfl, rfl⟩
          · rfl
          · rfl
    · have hf' : callFrame f = false := by simpa using hf
      have he : nearestCall (f :: fs) e = nearestCall fs (f.fill e) := by
        cases f <;> first | rfl | skip
        case callF g b as g2 => cases b <;> first | rfl | cases hf'
        case callA h g b g2 => cases b <;> first | rfl | cases hf'
      rw [he, ih]
      constructor
      · rintro ⟨inner, f', outer, h, hin, hn⟩
        refine ⟨f :: inner, f', outer, by simpa using h, ?_, hn⟩
        intro b hb
        rcases List.mem_cons.mp hb with rfl | hb
        · exact callFrame_false.mp hf'
        · exact hin b hb
      · rintro ⟨inner, f', outer, h, hin, hn⟩
        cases inner with
        | nil =>
          exfalso
          injection h with h1 h2
          subst h1
          rcases hn with ⟨_, _, _, rfl, -⟩ | ⟨_, _, _, rfl, -⟩ <;> cases hf'
        | cons b inner =>
          injection h with h1 h2
          subst h1
          exact ⟨inner, f', outer, h2, fun b hb => hin b (by simp [hb]), hn⟩

theorem skipped_iff {z : Zip} {skipped : List Str} :
    (ancestorIs Frame.isArg z.fs && (match nearestCall z.fs z.e with | some n => decide (n ∈ skipped) | none => false)) = true ↔ InArg z.fs ∧ ∃ n ∈ skipped, InCallOf n z := by
  rw [Bool.and_eq_true, inArg_iff]
  refine and_congr Iff.rfl ?_
  constructor
  · intro h
    split at h
    next n hn => exact ⟨n, of_decide_eq_true h, nearestCall_iff.mp hn⟩
    next => cases h
  · rintro ⟨n, hn, hc⟩
    rw [nearestCall_iff.mpr hc]
    exact decide_eq_true hn

/-- implicit_assignment reports exactly the assignments with arrows in an `if`, `while` or `for` (not directly the body) or in an argument, with no braces between, unless they are in an argument of
something and the innermost call around is one of the functions to skip. -/
theorem C55_implicit_assignment {skipped} {z : Zip} {s} :
    implicitAssignment skipped z = some s ↔ ArrowAssign z.e ∧ ¬ (InArg z.fs ∧ ∃ n ∈ skipped, InCallOf n z) ∧
      (s = .implicitIf ∧ InIf z.fs ∨ s = .implicitWhile ∧ ¬ InIf z.fs ∧ InWhile z.fs ∨ s = .implicitFor ∧ ¬ InIf z.fs ∧ ¬ InWhile z.fs ∧ InFor z.fs ∨
       s = .implicitArg ∧ ¬ InIf z.fs ∧ ¬ InWhile z.fs ∧ ¬ InFor z.fs ∧ InArg z.fs) := by
  rw [← skipped_iff, ← inIf_iff, ← inWhile_iff, ← inFor_iff, ← inArg_iff]
  obtain ⟨fs, e⟩ := z
  cases e with
  | bin l g o r =>
    have ha : ArrowAssign (.bin l g o r) ↔ (o = .assign ∨ o = .superAssign ∨ o = .rassign ∨ o = .superRassign) := by
      constructor
      · rintro ⟨_, _, _, _, h, ho⟩; cases h; simpa using ho
      · intro h; exact ⟨_, _, _, _, rfl, by simpa using h⟩
    rw [ha]
    simp only [implicitAssignment, asBin, Option.bind_eq_bind, Option.bind_some, guard_bind]
    refine and_congr Iff.rfl ?_
    rw [Bool.not_eq_true', ← Bool.not_eq_true]
    refine and_congr Iff.rfl ?_
    generalize (!isIfBody fs && ancestorIs Frame.isIf fs) = a
    generalize (!isWhileBody fs && ancestorIs Frame.isWhile fs) = b
    generalize (!isForBody fs && ancestorIs Frame.isFor fs) = c
    generalize (ancestorIs Frame.isArg fs) = d
    cases a <;> cases b <;> cases c <;> cases d <;> simp <;> exact eq_comm
  | _ => simp [implicitAssignment, asBin, ArrowAssign]

/-- Assignments in arguments, in conditions and in the sequences of loops are found. -/
theorem C55_implicit_found {skipped} {z : Zip} (ha : ArrowAssign z.e) (hs : ∀ n ∈ skipped, ¬ InCallOf n z)
    (hw : InArg z.fs ∨ (¬ Directly (fun f => IfBody f ∨ WhileBody f ∨ ∃ v, ForBody v f) z.fs ∧
      Within (fun f => IfCond f ∨ WhileCond f ∨ ∃ v, ForSeq v f) z.fs)) :
    ∃ s, implicitAssignment skipped z = some s := by
  have key : InIf z.fs ∨ InWhile z.fs ∨ InFor z.fs ∨ InArg z.fs := by
    rcases hw with h | ⟨hb, inner, f, outer, hfs, hf, hin⟩
    · exact Or.inr (Or.inr (Or.inr h))
    · rcases hf with hf | hf | ⟨v, hf⟩
      · exact Or.inl ⟨⟨inner, f, outer, hfs, Or.inl hf, hin⟩, fun ⟨f, fs, h1, h2⟩ => hb ⟨f, fs, h1, Or.inl h2⟩⟩
      · exact Or.inr (Or.inl ⟨⟨inner, f, outer, hfs, Or.inl hf, hin⟩, fun ⟨f, fs, h1, h2⟩ => hb ⟨f, fs, h1, Or.inr (Or.inl h2)⟩⟩)
      · exact Or.inr (Or.inr (Or.inl ⟨⟨inner, f, outer, hfs, ⟨v, Or.inl hf⟩, hin⟩, fun ⟨f, fs, h1, h2⟩ => hb ⟨f, fs, h1, Or.inr (Or.inr h2)⟩⟩))
  have hskip : ¬ (InArg z.fs ∧ ∃ n ∈ skipped, InCallOf n z) := fun ⟨_, n, hn, hc⟩ => hs n hn hc
  by_cases h1 : InIf z.fs
  · exact ⟨_, C55_implicit_assignment.mpr ⟨ha, hskip, Or.inl ⟨rfl, h1⟩⟩⟩
  by_cases h2 : InWhile z.fs
  · exact ⟨_, C55_implicit_assignment.mpr ⟨ha, hskip, Or.inr (Or.inl ⟨rfl, h1, h2⟩)⟩⟩
  by_cases h3 : InFor z.fs
  · exact ⟨_, C55_implicit_assignment.mpr ⟨ha, hskip, Or.inr (Or.inr (Or.inl ⟨rfl, h1, h2, h3⟩))⟩⟩
  rcases key with h | h | h | h
  · exact absurd h h1
  · exact absurd h h2
  · exact absurd h h3
  · exact ⟨_, C55_implicit_assignment.mpr ⟨ha, hskip, Or.inr (Or.inr (Or.inr ⟨rfl, h1, h2, h3, h⟩))⟩⟩

/-- Statements of their own are never reported: at the top of the program and in braces. -/
theorem C55_implicit_statement {skipped e} {inner outer : List Frame} (hi : ∀ f ∈ inner, (∃ s r, f = .sconsE s r) ∨ ∃ a s, f = .sconsR a s)
    (ho : outer = [] ∨ ∃ g g2 fs, outer = .braces g g2 :: fs) : implicitAssignment skipped ⟨inner ++ outer, e⟩ = none := by
  have hw : ∀ {P : Frame → Prop}, (∀ f, P f → (∀ s r, f ≠ .sconsE s r) ∧ (∀ a s, f ≠ .sconsR a s) ∧ ∀ g g2, f ≠ .braces g g2) → ¬ Within P (inner ++ outer) := by
    intro P hP
    induction inner with
    | nil =>
      rintro ⟨i, f, o, h, hf, hin⟩
      rcases ho with rfl | ⟨g, g2, fs, rfl⟩
      · simp at h
      · cases i with
        | nil => injection h with h; exact (hP f hf).2.2 _ _ h.symm
        | cons b i => injection h with h; exact hin b (by simp) _ _ h.symm
    | cons c inner ih =>
      rintro ⟨i, f, o, h, hf, hin⟩
      cases i with
      | nil =>
        injection h with h; subst h
        rcases hi c (by simp) with ⟨s, r, rfl⟩ | ⟨a, s, rfl⟩
        · exact (hP _ hf).1 _ _ rfl
        · exact (hP _ hf).2.1 _ _ rfl
      | cons b i =>
        injection h with h1 h2
        exact ih (fun f hf => hi f (by simp [hf])) ⟨i, f, o, h2, hf, fun b hb => hin b (by simp [hb])⟩
  cases h : implicitAssignment skipped ⟨inner ++ outer, e⟩ with
  | none => rfl
  | some s =>
    exfalso
    obtain ⟨-, -, h⟩ := C55_implicit_assignment.mp h
    have h1 : ¬ InIf (inner ++ outer) := fun h =>
      hw (P := fun f => IfCond f ∨ IfBody f) (by intro f hf; cases f <;> simp [IfCond, IfBody] at hf <;> simp) h.1
    have h2 : ¬ InWhile (inner ++ outer) := fun h =>
      hw (P := fun f => WhileCond f ∨ WhileBody f) (by intro f hf; cases f <;> simp [WhileCond, WhileBody] at hf <;> simp) h.1
    have h3 : ¬ InFor (inner ++ outer) := fun h =>
      hw (P := fun f => ∃ v, ForSeq v f ∨ ForBody v f) (by intro f hf; cases f <;> simp [ForSeq, ForBody] at hf <;> simp) h.1
    have h4 : ¬ InArg (inner ++ outer) := fun h =>
      hw (P := ArgPlace) (by intro f hf; cases f <;> simp [ArgPlace] at hf <;> simp) h
    rcases h with h | h | h | h
    · exact h1 h.2
    · exact h2 h.2.2
    · exact h3 h.2.2.2
    · exact h4 h.2.2.2.2

/-! ## Loops -/

/-- for_loop_dup_index reports exactly the loops inside of a loop (its sequence or body) with the same variable. -/
theorem C55_for_loop_dup_index {z : Zip} {s} :
    forLoopDupIndex z = some s ↔ s = .forDup ∧ ∃ g g2 gv v gi q g3 b, z.e = .forE g g2 gv v gi q g3 b ∧ ∃ f ∈ z.fs, ForSeq v f ∨ ForBody v f := by
  obtain ⟨fs, e⟩ := z
  have hv : ∀ (f : Frame) v, f.loopVar? = some v ↔ ForSeq v f ∨ ForBody v f := by
    intro f v; cases f <;> simp [Frame.loopVar?, ForSeq, ForBody] <;> exact eq_comm
  cases e with
  | forE g g2 gv v gi q g3 b =>
    simp only [forLoopDupIndex]
    constructor
    · intro h
      split at h
      next hany =>
        injection h with h
        obtain ⟨f, hf, hf'⟩ := List.any_eq_true.mp hany
        exact ⟨h.symm, _, _, _, _, _, _, _, _, rfl, f, hf, (hv f v).mp (of_decide_eq_true hf')⟩
      next => cases h
    · rintro ⟨rfl, _, _, _, _, _, _, _, _, he, f, hf, hf'⟩
      cases he
      rw [if_pos (List.any_eq_true.mpr ⟨f, hf, decide_eq_true ((hv f v).mpr hf')⟩)]
  | _ => simp [forLoopDupIndex]

theorem argPath_cons {f fs} : ArgPath (f :: fs) ↔ ((∃ h g g2, f = .callA h g .par g2) ∨ (∃ g k s g2, f = .named g k s g2) ∨ (∃ g r, f = .commaA g r) ∨ ∃ a g, f = .commaR a g) ∧ ArgPath fs := by
  simp [ArgPath]

/-- A use of the name, or an argument with this name. -/
def IsIndex (v : Str) (x : Node) : Prop := (∃ g, x = .atom g .id v) ∨ ∃ g k g2 e, x = .named g k v g2 e

theorem containsId_expr {v e} (h : isExpr e = true) : containsId v e = containsIdArgs v e := by
  cases e with
  | atom g k s => cases k <;> simp [containsId, containsIdArgs]
  | call f g b args g2 => cases b <;> simp [containsId, containsIdArgs]
  | _ => first | (simp [isExpr] at h; done) | simp [containsId, containsIdArgs]

theorem argPath_snoc {f fs} : ArgPath (fs ++ [f]) ↔ ArgPath fs ∧ ArgPath [f] := by
  simp only [ArgPath, List.mem_append, List.mem_singleton, or_imp, forall_and]

theorem containsIdArgs_iff {v} : ∀ {n md}, WF md n → (containsIdArgs v n = true ↔ ∃ fs x, ArgPath fs ∧ IsIndex v x ∧ plug fs x = n) := by
  intro n
  have leaf : ∀ {n : Node}, (∀ g, n ≠ .atom g .id v) → (∀ g k g2 e, n ≠ .named g k v g2 e) →
      (∀ f, ArgPath [f] → ∀ m, f.fill m ≠ n) → ¬ ∃ fs x, ArgPath fs ∧ IsIndex v x ∧ plug fs x = n := by
    intro n h1 h2 h3
    rintro ⟨fs, x, hp, hx, rfl⟩
    rcases List.eq_nil_or_concat fs with rfl | ⟨fs', f, rfl⟩
    · rcases hx with ⟨g, rfl⟩ | ⟨g, k, g2, e, rfl⟩
      · exact h1 g rfl
      · exact h2 g k g2 e rfl
    · rw [List.concat_eq_append] at hp
      refine h3 f (argPath_snoc.mp hp).2 (plug fs' x) ?_
      rw [List.concat_eq_append, plug_snoc]
  have nofill : ∀ {n : Node}, (∀ h g as g2, n ≠ .call h g .par as g2) → (∀ g k s g2 e, n ≠ .named g k s g2 e) → (∀ a g r, n ≠ .comma a g r) →
      ∀ f, ArgPath [f] → ∀ m, f.fill m ≠ n := by
    intro n h1 h2 h3 f hf m hm
    rcases hf f (by simp) with ⟨_, _, _, rfl⟩ | ⟨_, _, _, _, rfl⟩ | ⟨_, _, rfl⟩ | ⟨_, _, rfl⟩
    · exact h1 _ _ _ _ hm.symm
    · exact h2 _ _ _ _ _ hm.symm
    · exact h3 _ _ _ hm.symm
    · exact h3 _ _ _ hm.symm
  induction n with
  | atom g k s =>
    intro md _
    by_cases hk : k = .id ∧ s = v
    · obtain ⟨rfl, rfl⟩ := hk
      simp only [containsIdArgs, decide_true, true_iff]
      exact ⟨[], _, by simp [ArgPath], Or.inl ⟨g, rfl⟩, rfl⟩
    · have : containsIdArgs v (.atom g k s) = false := by
        cases k <;> first | rfl | simpa [containsIdArgs] using hk
      rw [this]
      simp only [Bool.false_eq_true, false_iff]
      exact leaf (by intro g' h; cases h; exact hk ⟨rfl, rfl⟩) (by simp) (nofill (by simp) (by simp) (by simp))
  | call f g b args g2 _ ih =>
    intro md hw
    cases b with
    | par =>
      have hw' : WF .free args := by simp only [WF] at hw; exact hw.2.2.2.2.2.1
      simp only [containsIdArgs]
      rw [ih hw']
      constructor
      · rintro ⟨fs, x, hp, hx, rfl⟩
        exact ⟨fs ++ [.callA f g .par g2], x, argPath_snoc.mpr ⟨hp, by simp [ArgPath]⟩, hx, plug_snoc _ _ _⟩
      · rintro ⟨fs, x, hp, hx, he⟩
        rcases List.eq_nil_or_concat fs with rfl | ⟨fs', f', rfl⟩
        · rcases hx with ⟨g, rfl⟩ | ⟨g, k, g2, e, rfl⟩ <;> cases he
        · rw [List.concat_eq_append] at hp he
          rw [plug_snoc] at he
          obtain ⟨hp1, hp2⟩ := argPath_snoc.mp hp
          rcases hp2 f' (by simp) with ⟨_, _, _, rfl⟩ | ⟨_, _, _, _, rfl⟩ | ⟨_, _, rfl⟩ | ⟨_, _, rfl⟩ <;> cases he
          exact ⟨fs', x, hp1, hx, rfl⟩
    | brk =>
      simp only [containsIdArgs, Bool.false_eq_true, false_iff]
      exact leaf (by simp) (by simp) (nofill (by simp) (by simp) (by simp))
    | brk2 =>
      simp only [containsIdArgs, Bool.false_eq_true, false_iff]
      exact leaf (by simp) (by simp) (nofill (by simp) (by simp) (by simp))
  | named g k s g2 e ih =>
    intro md hw
    have hval : containsId v e = true ↔ ∃ fs x, ArgPath fs ∧ IsIndex v x ∧ plug fs x = e := by
      simp only [WF] at hw
      rcases hw.2 with rfl | ⟨he, hwe, -⟩
      · simp only [containsId, Bool.false_eq_true, false_iff]
        exact leaf (by simp) (by simp) (nofill (by simp) (by simp) (by simp))
      · rw [containsId_expr he]; exact ih hwe
    simp only [containsIdArgs, Bool.or_eq_true, decide_eq_true_eq]
    rw [hval]
    constructor
    · rintro (rfl | ⟨fs, x, hp, hx, rfl⟩)
      · exact ⟨[], _, by simp [ArgPath], Or.inr ⟨_, _, _, _, rfl⟩, rfl⟩
      · exact ⟨fs ++ [.named g k s g2], x, argPath_snoc.mpr ⟨hp, by simp [ArgPath]⟩, hx, plug_snoc _ _ _⟩
    · rintro ⟨fs, x, hp, hx, he⟩
      rcases List.eq_nil_or_concat fs with rfl | ⟨fs', f', rfl⟩
      · rcases hx with ⟨g, rfl⟩ | ⟨g, k, g2, e, rfl⟩ <;> cases he
        exact Or.inl rfl
      · rw [List.concat_eq_append] at hp he
        rw [plug_snoc] at he
        obtain ⟨hp1, hp2⟩ := argPath_snoc.mp hp
        rcases hp2 f' (by simp) with ⟨_, _, _, rfl⟩ | ⟨_, _, _, _, rfl⟩ | ⟨_, _, rfl⟩ | ⟨_, _, rfl⟩ <;> cases he
        exact Or.inr ⟨fs', x, hp1, hx, rfl⟩
  | comma a g rest iha ihr =>
    intro md hw
    simp only [WF] at hw
    simp only [containsIdArgs, Bool.or_eq_true]
    rw [iha hw.2.1, ihr hw.2.2.2.2.1]
    constructor
    · rintro (⟨fs, x, hp, hx, rfl⟩ | ⟨fs, x, hp, hx, rfl⟩)
      · exact ⟨fs ++ [.commaA g rest], x, argPath_snoc.mpr ⟨hp, by simp [ArgPath]⟩, hx, plug_snoc _ _ _⟩
      · exact ⟨fs ++ [.commaR a g], x, argPath_snoc.mpr ⟨hp, by simp [ArgPath]⟩, hx, plug_snoc _ _ _⟩
    · rintro ⟨fs, x, hp, hx, he⟩
      rcases List.eq_nil_or_concat fs with rfl | ⟨fs', f', rfl⟩
      · rcases hx with ⟨g, rfl⟩ | ⟨g, k, g2, e, rfl⟩ <;> cases he
      · rw [List.concat_eq_append] at hp he
        rw [plug_snoc] at he
        obtain ⟨hp1, hp2⟩ := argPath_snoc.mp hp
        rcases hp2 f' (by simp) with ⟨_, _, _, rfl⟩ | ⟨_, _, _, _, rfl⟩ | ⟨_, _, rfl⟩ | ⟨_, _, rfl⟩ <;> cases he
        · exact Or.inl ⟨fs', x, hp1, hx, rfl⟩
        · exact Or.inr ⟨fs', x, hp1, hx, rfl⟩
  | _ =>
    intro md _
    simp only [containsIdArgs, Bool.false_eq_true, false_iff]
    exact leaf (by simp) (by simp) (nofill (by simp) (by simp) (by simp))

/-- for_loop_index reports exactly the loops whose variable is the sequence, or is an argument of it, of one of its arguments, and so on, where the names of arguments count as well. -/
theorem C55_for_loop_index {z : Zip} {md s} (hw : WF md z.e) :
    forLoopIndex z = some s ↔ s = .forIndex ∧ ∃ g g2 gv v gi q g3 b, z.e = .forE g g2 gv v gi q g3 b ∧
      ∃ fs x, ArgPath fs ∧ plug fs x = q ∧ ((∃ g, x = .atom g .id v) ∨ ∃ g k g2 e, x = .named g k v g2 e) := by
  obtain ⟨fs, e⟩ := z
  cases e with
  | forE g g2 gv v gi q g3 b =>
    simp only [WF] at hw
    have hi := containsIdArgs_iff (v := v) hw.2.1
    rw [← containsId_expr hw.1] at hi
    simp only [forLoopIndex]
    constructor
    · intro h
      split at h
      next hc =>
        injection h with h
        obtain ⟨fs, x, h1, h2, h3⟩ := hi.mp hc
        exact ⟨h.symm, _, _, _, _, _, _, _, _, rfl, fs, x, h1, h3, h2⟩
      next => cases h
    · rintro ⟨rfl, _, _, _, _, _, _, _, _, he, fs, x, h1, h3, h2⟩
      cases he
      rw [if_pos (hi.mpr ⟨fs, x, h1, h2, h3⟩)]
  | _ => simp [forLoopIndex]

end Jarl

import Verif.Lemmas.RLaws
import Verif.Spec.RTogether
/-!
# Two fixes at different places
-/
namespace Jarl
open Spec

/-! ## Mixing -/

/-- `m` has the left side of `a` and the right side of `b`. -/
structure Mix (a b m : Node) : Prop where
  expr : isExpr m = isExpr a
  stmts : isStmts m = isStmts a
  args : isArgs m = isArgs a
  arg : isArg m = isArg a
  hole : m = .hole ↔ a = .hole
  snil : m = .snil ↔ a = .snil
  lp : lp m = lp a
  ne : toks m = [] ↔ toks a = []
  gap : headGap (toks m) = headGap (toks a)
  rp : rp m = rp b
  openIf : openIf m = openIf b

theorem Mix.fill_wf {md f a b m} (h : Mix a b m) (ha : WF md (f.fill a)) (hb : WF md (f.fill b)) (hm : WF (inner md f) m) : WF md (f.fill m) := by
  obtain ⟨h1, h2, h3, h4, h5, h6, h7, h8, h9, h10, h11⟩ := h
  cases f <;> simp only [Frame.fill, WF, inner] at ha hb hm ⊢ <;> simp_all
  case named => exact ha.imp id fun x => ⟨x.1, x.2.2⟩

theorem Mix.fill {f : Frame} {a b m} (h : Mix a b m) : Mix (f.fill a) (f.fill b) (f.fill m) where
  expr := by cases f <;> rfl
  stmts := by cases f <;> rfl
  args := by cases f <;> rfl
  arg := by cases f <;> rfl
  hole := by cases f <;> simp [Frame.fill]
  snil := by cases f <;> simp [Frame.fill]
  lp := by cases f <;> simp [Frame.fill, Spec.lp, h.lp]
  ne := by rw [toks_fill, toks_fill]; simp [h.ne]
  gap := by
    rw [toks_fill, toks_fill]
    by_cases hb : f.before = []
    · simp only [hb, List.nil_append]
      by_cases hn : toks a = []
      · rw [hn, h.ne.mpr hn]
      · rw [headGap_append hn, headGap_append (fun x => hn (h.ne.mp x)), h.gap]
    · rw [List.append_assoc, List.append_assoc, headGap_append hb, headGap_append hb]
  rp := by cases f <;> simp [Frame.fill, Spec.rp, h.rp]
  openIf := by cases f <;> simp [Frame.fill, Spec.openIf, h.openIf]

theorem Mix.plug {fs a b m} (h : Mix a b m) (ha : WF .top (plug fs a)) (hb : WF .top (plug fs b)) (hm : WF (modeAt fs) m) :
    WF .top (plug fs m) ∧ isStmts (Jarl.plug fs m) = isStmts (Jarl.plug fs a) := by
  induction fs generalizing a b m with
  | nil => exact ⟨hm, h.stmts⟩
  | cons f fs ih => exact ih h.fill ha hb (h.fill_wf (WF_plug (fs := fs) ha) (WF_plug (fs := fs) hb) hm)

/-! ## Nodes with two places -/

/-- A node where two children are missing. -/
inductive Two
  | bin (g : Gap) (o : Op)
  | call (g : Gap) (b : Br) (g2 : Gap)
  | func (g : Gap) (lambda : Bool) (g2 g3 : Gap)
  | ifE (g g2 g3 : Gap)
  | ieCT (g g2 g3 g4 : Gap) (e : Node)
  | ieCE (g g2 g3 : Gap) (t : Node) (g4 : Gap)
  | ieTE (g g2 : Gap) (c : Node) (g3 g4 : Gap)
  | whileE (g g2 g3 : Gap)
  | forE (g g2 gv : Gap) (v : Str) (gi g3 : Gap)
  | comma (g : Gap)
  | scons (semis : List Gap)

/-- The frame of the left place. -/
def Two.left : Two → Node → Frame
  | .bin g o, y => .binL g o y
  | .call g b g2, y => .callF g b y g2
  | .func g la g2 g3, y => .funcP g la g2 g3 y
  | .ifE g g2 g3, y => .ifC g g2 g3 y
  | .ieCT g g2 g3 g4 e, y => .ieC g g2 g3 y g4 e
  | .ieCE g g2 g3 t g4, y => .ieC g g2 g3 t g4 y
  | .ieTE g g2 c g3 g4, y => .ieT g g2 c g3 g4 y
  | .whileE g g2 g3, y => .whileC g g2 g3 y
  | .forE g g2 gv v gi g3, y => .forS g g2 gv v gi g3 y
  | .comma g, y => .commaA g y
  | .scons s, y => .sconsE s y

/-- The frame of the right place. -/
def Two.right : Two → Node → Frame
  | .bin g o, x => .binR x g o
  | .call g b g2, x => .callA x g b g2
  | .func g la g2 g3, x => .funcB g la g2 x g3
  | .ifE g g2 g3, x => .ifT g g2 x g3
  | .ieCT g g2 g3 g4 e, x => .ieT g g2 x g3 g4 e
  | .ieCE g g2 g3 t g4, x => .ieE g g2 x g3 t g4
  | .ieTE g g2 c g3 g4, x => .ieE g g2 c g3 x g4
  | .whileE g g2 g3, x => .whileB g g2 x g3
  | .forE g g2 gv v gi g3, x => .forB g g2 gv v gi x g3
  | .comma g, x => .commaR x g
  | .scons s, x => .sconsR x s

theorem Two.fill (t : Two) (x y : Node) : (t.left y).fill x = (t.right x).fill y := by cases t <;> rfl

theorem Two.child_left (t : Two) (y y' : Node) : child (t.left y) = child (t.left y') := by cases t <;> rfl
theorem Two.child_right (t : Two) (x x' : Node) : child (t.right x) = child (t.right x') := by cases t <;> rfl
theorem Two.before_left (t : Two) (y y' : Node) : (t.left y).before = (t.left y').before := by cases t <;> rfl

theorem Two.before_right (t : Two) (x y : Node) : ∃ mid, (t.right x).before = (t.left y).before ++ toks x ++ mid := by
  cases t <;> simp [Two.left, Two.right, Frame.before]

/-- Both changes. -/
theorem Two.mix {t : Two} {md x y x' y'} (hx : WF md ((t.left y).fill x')) (hy : WF md ((t.left y').fill x)) :
    WF md ((t.left y').fill x') ∧ Mix ((t.left y).fill x') ((t.left y').fill x) ((t.left y').fill x') := by
  refine ⟨?_, ?_⟩
  · cases t <;> simp only [Two.left, Frame.fill, WF] at hx hy ⊢ <;> simp_all
  · constructor
    case gap =>
      cases t <;> simp only [Two.left, Frame.fill, toks, List.cons_append, List.append_assoc]
      case bin => cases toks x' <;> rfl
      case call => cases toks x' <;> rfl
      case comma => cases toks x' <;> rfl
      case scons => rw [headGap_append (expr_toks hx.1 hx.2.1), headGap_append (expr_toks hx.1 hx.2.1)]
      all_goals rfl
    case ne =>
      cases t <;> simp only [Two.left, Frame.fill, toks] <;> simp
      case scons => have := expr_toks hx.1 hx.2.1; simp [this]
    all_goals cases t <;> simp [Two.left, Frame.fill, isExpr, isStmts, isArgs, isArg, Spec.lp, Spec.rp, Spec.openIf]

/-! ## Two places in a program -/

theorem fill_eq {f f' x y} (h : Frame.fill f x = Frame.fill f' y) :
    (f = f' ∧ x = y) ∨ (∃ t : Two, f = t.left y ∧ f' = t.right x) ∨ ∃ t : Two, f = t.right y ∧ f' = t.left x := by
  cases f <;> cases f' <;> simp only [Frame.fill, reduceCtorEq, Node.paren.injEq, Node.braces.injEq, Node.un.injEq, Node.bin.injEq, Node.ext.injEq, Node.call.injEq,
    Node.func.injEq, Node.ifE.injEq, Node.ifElse.injEq, Node.whileE.injEq, Node.forE.injEq, Node.repE.injEq, Node.named.injEq, Node.comma.injEq, Node.scons.injEq] at h
  case binL.binR => (repeat (obtain ⟨rfl, h⟩ := h)); exact Or.inr (Or.inl ⟨.bin _ _, rfl, rfl⟩)
  case binR.binL => (repeat (obtain ⟨rfl, h⟩ := h)); exact Or.inr (Or.inr ⟨.bin _ _, rfl, rfl⟩)
  case callF.callA => (repeat (obtain ⟨rfl, h⟩ := h)); exact Or.inr (Or.inl ⟨.call _ _ _, rfl, rfl⟩)
  case callA.callF => (repeat (obtain ⟨rfl, h⟩ := h)); exact Or.inr (Or.inr ⟨.call _ _ _, rfl, rfl⟩)
  case funcP.funcB => (repeat (obtain ⟨rfl, h⟩ := h)); exact Or.inr (Or.inl ⟨.func _ _ _ _, rfl, rfl⟩)
  case funcB.funcP => (repeat (obtain ⟨rfl, h⟩ := h)); exact Or.inr (Or.inr ⟨.func _ _ _ _, rfl, rfl⟩)
  case ifC.ifT => (repeat (obtain ⟨rfl, h⟩ := h)); exact Or.inr (Or.inl ⟨.ifE _ _ _, rfl, rfl⟩)
  case ifT.ifC => (repeat (obtain ⟨rfl, h⟩ := h)); exact Or.inr (Or.inr ⟨.ifE _ _ _, rfl, rfl⟩)
  case ieC.ieT => (repeat (obtain ⟨rfl, h⟩ := h)); exact Or.inr (Or.inl ⟨.ieCT _ _ _ _ _, rfl, rfl⟩)
  case ieT.ieC => (repeat (obtain ⟨rfl, h⟩ := h)); exact Or.inr (Or.inr ⟨.ieCT _ _ _ _ _, rfl, rfl⟩)
  case ieC.ieE => (repeat (obtain ⟨rfl, h⟩ := h)); exact Or.inr (Or.inl ⟨.ieCE _ _ _ _ _, rfl, rfl⟩)
  case ieE.ieC => (repeat (obtain ⟨rfl, h⟩ := h)); exact Or.inr (Or.inr ⟨.ieCE _ _ _ _ _, rfl, rfl⟩)
  case ieT.ieE => (repeat (obtain ⟨rfl, h⟩ := h)); exact Or.inr (Or.inl ⟨.ieTE _ _ _ _ _, rfl, rfl⟩)
  case ieE.ieT => (repeat (obtain ⟨rfl, h⟩ := h)); exact Or.inr (Or.inr ⟨.ieTE _ _ _ _ _, rfl, rfl⟩)
  case whileC.whileB => (repeat (obtain ⟨rfl, h⟩ := h)); exact Or.inr (Or.inl ⟨.whileE _ _ _, rfl, rfl⟩)
  case whileB.whileC => (repeat (obtain ⟨rfl, h⟩ := h)); exact Or.inr (Or.inr ⟨.whileE _ _ _, rfl, rfl⟩)
  case forS.forB => (repeat (obtain ⟨rfl, h⟩ := h)); exact Or.inr (Or.inl ⟨.forE _ _ _ _ _ _, rfl, rfl⟩)
  case forB.forS => (repeat (obtain ⟨rfl, h⟩ := h)); exact Or.inr (Or.inr ⟨.forE _ _ _ _ _ _, rfl, rfl⟩)
  case commaA.commaR => (repeat (obtain ⟨rfl, h⟩ := h)); exact Or.inr (Or.inl ⟨.comma _, rfl, rfl⟩)
  case commaR.commaA => (repeat (obtain ⟨rfl, h⟩ := h)); exact Or.inr (Or.inr ⟨.comma _, rfl, rfl⟩)
  case sconsE.sconsR => (repeat (obtain ⟨rfl, h⟩ := h)); exact Or.inr (Or.inl ⟨.scons _, rfl, rfl⟩)
  case sconsR.sconsE => (repeat (obtain ⟨rfl, h⟩ := h)); exact Or.inr (Or.inr ⟨.scons _, rfl, rfl⟩)
  all_goals exact Or.inl (by simp_all)

theorem plug_append (a b : List Frame) (e : Node) : plug (a ++ b) e = plug b (plug a e) := by
  induction a generalizing e with
  | nil => rfl
  | cons f a ih => exact ih _

theorem beforeToks_append (a b : List Frame) : beforeToks (a ++ b) = beforeToks b ++ beforeToks a := by
  induction a with
  | nil => simp [beforeToks]
  | cons f a ih => simp [beforeToks, ih]

/-- The two ways part. -/
inductive Parts : List Frame → Node → List Frame → Node → Prop
  | inside (ia fs ea eb) : plug ia ea = eb → Parts (ia ++ fs) ea fs eb
  | around (ib fs ea eb) : ea = plug ib eb → Parts fs ea (ib ++ fs) eb
  | left (ia ib fs ea eb) (t : Two) : Parts (ia ++ t.left (plug ib eb) :: fs) ea (ib ++ t.right (plug ia ea) :: fs) eb
  | right (ia ib fs ea eb) (t : Two) : Parts (ia ++ t.right (plug ib eb) :: fs) ea (ib ++ t.left (plug ia ea) :: fs) eb

theorem parts_rev (ra : List Frame) : ∀ (rb fs : List Frame) (ea eb : Node), plug ra.reverse ea = plug rb.reverse eb → Parts (ra.reverse ++ fs) ea (rb.reverse ++ fs) eb := by
  induction ra with
  | nil => intro rb fs ea eb h; exact .around _ _ _ _ h
  | cons fa ra ih =>
    intro rb fs ea eb h
    cases rb with
    | nil => exact .inside _ _ _ _ h
    | cons fb rb =>
      rw [List.reverse_cons, List.reverse_cons, plug_append, plug_append] at h
      rw [List.reverse_cons, List.reverse_cons, List.append_assoc, List.append_assoc]
      have h : fa.fill (plug ra.reverse ea) = fb.fill (plug rb.reverse eb) := h
      rcases fill_eq h with ⟨hf, h2⟩ | ⟨t, rfl, rfl⟩ | ⟨t, rfl, rfl⟩
      · subst hf; exact ih rb ([fa] ++ fs) ea eb h2
      · exact .left _ _ _ _ _ t
      · exact .right _ _ _ _ _ t

theorem parts {fa fb ea eb} (h : plug fa ea = plug fb eb) : Parts fa ea fb eb := by
  have := parts_rev fa.reverse fb.reverse [] ea eb (by simpa using h)
  simpa using this

theorem length_plug (fs : List Frame) (e : Node) : (toks (plug fs e)).length = (beforeToks fs).length + (toks e).length + (afterToks fs).length := by
  rw [toks_plug]; simp; omega

/-- If the first expression is in front of the second, the ways part, the first to the left. -/
theorem parts_left {fa fb ea eb} (h : plug fa ea = plug fb eb) (ha : toks ea ≠ []) (hb : toks eb ≠ [])
    (hd : (beforeToks fa).length + (toks ea).length ≤ (beforeToks fb).length) :
    ∃ ia ib fs t, fa = ia ++ Two.left t (plug ib eb) :: fs ∧ fb = ib ++ Two.right t (plug ia ea) :: fs := by
  have ha' := List.length_pos_iff.mpr ha
  have hb' := List.length_pos_iff.mpr hb
  cases parts h with
  | inside ia _ _ _ h' => rw [beforeToks_append] at hd; simp at hd; omega
  | around ib _ _ _ h' =>
    subst h'
    rw [beforeToks_append, length_plug] at hd; simp at hd; omega
  | left ia ib fs _ _ t => exact ⟨ia, ib, fs, t, rfl, rfl⟩
  | right ia ib fs _ _ t =>
    obtain ⟨mid, hm⟩ := t.before_right (plug ib eb) (plug ia ea)
    rw [beforeToks_append, beforeToks_append] at hd
    simp only [beforeToks, hm, List.length_append, length_plug] at hd
    omega

/-! ## Replacing at a path -/

theorem replaceAt_fill (f : Frame) (e x : Node) (ps : List Nat) : replaceAt (f.fill e) (child f :: ps) x = f.fill (replaceAt e ps x) := by
  cases f <;> rfl

theorem replaceAt_plug (fs : List Frame) : ∀ (e x : Node) (ps : List Nat), replaceAt (plug fs e) (path fs ++ ps) x = plug fs (replaceAt e ps x) := by
  induction fs with
  | nil => intro e x ps; rfl
  | cons f fs ih =>
    intro e x ps
    have : path (f :: fs) ++ ps = path fs ++ child f :: ps := by simp [path]
    rw [this]
    show replaceAt (plug fs (f.fill e)) _ x = plug fs (f.fill _)
    rw [ih, replaceAt_fill]

theorem replaceAt_path (fs : List Frame) (e x : Node) : replaceAt (plug fs e) (path fs) x = plug fs x := by
  have := replaceAt_plug fs e x []
  rw [List.append_nil] at this
  rw [this]
  cases e <;> rfl

theorem edited_toks {ed : Edit} {x} (h : Parses (edited ed) (plug ed.z.fs x)) : toks x = (cutOf ed).new := by
  have := h.2.2
  rw [toks_plug, edited, List.append_assoc, List.append_assoc] at this
  exact List.append_cancel_right (List.append_cancel_left this)

theorem goodFix_ne {p ts ed} (hp : Parses ts p) (h : GoodFix p ed) : toks ed.z.e ≠ [] := by
  obtain ⟨rfl, h, _⟩ := h
  exact expr_toks h (WF_plug (fs := ed.z.fs) hp.2.1)

/-- Carry out the second fix; the first is still a good fix, at the same place. -/
theorem goodFix_after {p : Node} {a b : Edit} {y ts} (hp : Parses ts p) (ha : GoodFix p a) (hb : GoodFix p b) (hl : (cutOf a).stop ≤ (cutOf b).start)
    (hpy : Parses (edited b) (plug b.z.fs y)) :
    ∃ a' : Edit, GoodFix (plug b.z.fs y) a' ∧ cutOf a' = cutOf a ∧ path a'.z.fs = path a.z.fs ∧ a'.z.e = a.z.e ∧ a'.content = a.content ∧
      (∀ x, Parses (edited a') (plug a'.z.fs x) → isExpr x = true → toks x = (cutOf a).new → Parses (edited a) (plug a.z.fs x)) ∧
      ∀ k : Frame → Bool, (∀ t y y', k (Two.left t y) = k (Two.left t y')) → a'.z.fs.head?.map k = a.z.fs.head?.map k := by
  have hna := goodFix_ne hp ha
  have hnb := goodFix_ne hp hb
  obtain ⟨⟨fa, ea⟩, ca, sa⟩ := a
  obtain ⟨⟨fb, eb⟩, cb, sb⟩ := b
  obtain ⟨hpa, hea, x, hx, htx, hpx⟩ := ha
  obtain ⟨hpb, heb, -⟩ := hb
  simp only [Zip.prog, cutOf] at *
  obtain ⟨ia, ib, fs, t, rfl, rfl⟩ := parts_left (hpa.trans hpb.symm) hna hnb hl
  have hbt : ∀ r, beforeToks (ia ++ t.left r :: fs) = beforeToks (ia ++ t.left (plug ib eb) :: fs) := by
    intro r; rw [beforeToks_append, beforeToks_append]; simp only [beforeToks, t.before_left r (plug ib eb)]
  have key : WF .top (plug (ia ++ t.left (plug ib y) :: fs) x) ∧ isStmts (plug (ia ++ t.left (plug ib y) :: fs) x) = true := by
    have h1 := hpx.2.1
    have h2 := hpy.2.1
    have h3 := hpx.1
    rw [plug_append] at h1 h2 h3 ⊢
    simp only [plug] at h1 h2 h3 ⊢
    rw [← t.fill] at h2
    obtain ⟨m1, m2⟩ := Two.mix (WF_plug (fs := fs) h1) (WF_plug (fs := fs) h2)
    obtain ⟨m3, m4⟩ := m2.plug h1 h2 m1
    exact ⟨m3, m4.trans h3⟩
  refine ⟨⟨⟨ia ++ t.left (plug ib y) :: fs, ea⟩, ca, sa⟩, ⟨?_, hea, x, hx, htx, key.2, key.1, ?_⟩, ?_, ?_, rfl, rfl, ?_, ?_⟩
  · simp only [Zip.prog, plug_append, plug, t.fill]
  · rw [toks_plug, htx]; rfl
  · simp only [hbt]
  · simp [path, t.child_left _ (plug ib eb)]
  · intro x' hpx' hx' ht'
    have : x' = x := by
      have hw := WF_plug (fs := ia ++ t.left (plug ib y) :: fs) hpx'.2.1
      have hw' := WF_plug (fs := ia ++ t.left (plug ib y) :: fs) key.1
      exact expr_unique hx' hx hw (WF_free (isArgs_of_isArg (isArg_of_isExpr hx)) hw') (ht'.trans htx.symm)
    rw [this]; exact hpx
  · intro k hk
    cases ia with
    | nil => simp [hk t (plug ib y) (plug ib eb)]
    | cons => rfl

/-! ## Cuts -/

theorem Patched.le {i ts cs out} (h : Patched i ts cs out) : ∀ c ∈ cs, i ≤ c.start ∧ c.start ≤ c.stop ∧ c.stop ≤ i + ts.length := by
  induction h with
  | done => simp
  | cut h1 h2 _ ih =>
    intro c hc
    rcases List.mem_cons.mp hc with rfl | hc
    · simp; omega
    · have := ih c hc; simp; omega

/-- The last cut can be made first. -/
theorem Patched.last {cs c} : ∀ {i ts out}, Patched i ts (cs ++ [c]) out → ∃ pre old post, ts = pre ++ old ++ post ∧ i + pre.length = c.start ∧
    c.start + old.length = c.stop ∧ (∀ d ∈ cs, d.stop ≤ c.start) ∧ Patched i (pre ++ c.new ++ post) cs out := by
  induction cs with
  | nil =>
    intro i ts out h
    cases h with
    | cut h1 h2 h3 =>
      cases h3 with
      | done => exact ⟨_, _, _, rfl, h1, h2, by simp, .done _ _⟩
  | cons d cs ih =>
    intro i ts out h
    cases h with
    | @cut _ keep old rest _ _ out h1 h2 h3 =>
      obtain ⟨pre, old', post, rfl, h4, h5, h6, h7⟩ := ih h3
      refine ⟨keep ++ old ++ pre, old', post, by simp, by simp; omega, h5, ?_, ?_⟩
      · intro e he
        rcases List.mem_cons.mp he with rfl | he
        · omega
        · exact h6 e he
      · have := Patched.cut (keep := keep) (old := old) h1 h2 h7
        simpa using this

end Jarl

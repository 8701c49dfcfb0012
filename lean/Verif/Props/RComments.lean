import Verif.Spec.RComments
import Verif.Props.RFixMain
/-!
# C64: fixing keeps the comments
-/
namespace Jarl
open Spec

/-- No comments. -/
def Calm (ts : List Tok) : Prop := ∀ t ∈ ts, t.gap.comment = false

theorem gapComments_nil {g : Gap} : gapComments g = [] ↔ g.comment = false := by
  unfold gapComments Gap.comment
  cases g.trail <;> cases g.own <;> simp

theorem comments_append (a b : List Tok) : comments (a ++ b) = comments a ++ comments b := by
  induction a with
  | nil => rfl
  | cons t ts ih => simp [comments, ih]

theorem comments_nil {ts : List Tok} : comments ts = [] ↔ Calm ts := by
  induction ts with
  | nil => simp [comments, Calm]
  | cons t ts ih =>
    simp only [comments, List.append_eq_nil_iff, gapComments_nil, ih]
    simp [Calm]

theorem inner_calm {ts : List Tok} : innerComments ts = false ↔ Calm ts.tail := by
  cases ts with
  | nil => simp [innerComments, Calm]
  | cons t ts => simp [innerComments, Calm]

theorem Calm.sub {a b : List Tok} (h : Calm b) (hs : ∀ t ∈ a, t ∈ b) : Calm a := fun t ht => h t (hs t ht)

theorem Calm.append {a b} (ha : Calm a) (hb : Calm b) : Calm (a ++ b) := fun t ht => by
  rcases List.mem_append.mp ht with h | h
  · exact ha t h
  · exact hb t h

theorem Calm.tk {a k} (ha : Calm a) : Calm (tk k :: a) := fun t ht => by
  rcases List.mem_cons.mp ht with rfl | h
  · rfl
  · exact ha t h

theorem Calm.nil : Calm [] := fun _ h => by cases h

theorem Calm.one (k) : Calm [Jarl.tk k] := Calm.nil.tk

theorem Calm.comma {a b k} (ha : Calm a) (hb : Calm b) : Calm (a ++ Jarl.tk k :: b) := ha.append hb.tk

theorem Calm.callText {name a} (ha : Calm a) : Calm (callText name a) := ((ha.append (Calm.one _)).tk).tk

theorem Calm.prefixedText {f name a} (ha : Calm a) : Calm (prefixedText f name a) := by
  unfold Jarl.prefixedText prefixed
  split
  · exact ((ha.append (Calm.one _)).tk).tk
  · exact ((ha.append (Calm.one _)).tk).tk

theorem Calm.join {l : List (List Tok)} (h : ∀ a ∈ l, Calm a) : Calm (joinComma l) := by
  induction l with
  | nil => exact Calm.nil
  | cons a l ih =>
    cases l with
    | nil => exact h a (by simp)
    | cons b l => exact (h a (by simp)).comma (ih fun c hc => h c (by simp [hc]))

/-- A piece whose own gaps have no comments, apart from what is in front of it. -/
def Quiet (e : Node) : Prop := Calm (toks e).tail

theorem Quiet.trimmed {e} (h : Quiet e) : Calm (trimmed e) := by
  unfold Jarl.trimmed Quiet at *
  cases ht : toks e with
  | nil => exact Calm.nil
  | cons t ts =>
    rw [ht] at h
    intro u hu
    rcases List.mem_cons.mp hu with rfl | hu
    · rfl
    · exact h u hu

theorem Calm.quiet {e} (h : Calm (toks e)) : Quiet e := fun t ht => h t (List.mem_of_mem_tail ht)

theorem Calm.trimmed {e} (h : Calm (toks e)) : Calm (trimmed e) := h.quiet.trimmed

theorem Calm.joined {as : List Node} (h : ∀ a ∈ as, Calm (toks a)) : Calm (joinComma (as.map Jarl.trimmed)) := by
  refine Calm.join fun c hc => ?_
  obtain ⟨a, ha, rfl⟩ := List.mem_map.mp hc
  exact (h a ha).trimmed

theorem tail_append_sub {α} {a b : List α} {t} (h : t ∈ a.tail ++ b) : t ∈ (a ++ b).tail ∨ a = [] := by
  cases a with
  | nil => exact .inr rfl
  | cons x xs => exact .inl (by simpa using h)

theorem mem_tail_right {α} {a b : List α} {x t} (h : t ∈ b) : t ∈ (a ++ x :: b).tail := by
  cases a with
  | nil => exact h
  | cons y ys => simp [h]

theorem Quiet.args {e f args} (h : Quiet e) (h1 : asCall e = some (f, args)) : ∀ a ∈ items args, Calm (toks a) := by
  obtain ⟨g, g2, rfl⟩ := asCall_eq h1
  intro a ha t ht
  refine h t ?_
  simp only [toks, List.append_assoc, List.cons_append]
  exact mem_tail_right (by simp [items_toks ha t ht])

theorem Quiet.argsText {e f args} (h : Quiet e) (h1 : asCall e = some (f, args)) : Calm (toks args) := by
  obtain ⟨g, g2, rfl⟩ := asCall_eq h1
  intro t ht
  refine h t ?_
  simp only [toks, List.append_assoc, List.cons_append]
  exact mem_tail_right (by simp [ht])

theorem Quiet.subset {e f args} (h : Quiet e) (h1 : asSubset e = some (f, args)) : Quiet f ∧ ∀ a ∈ items args, Calm (toks a) := by
  obtain ⟨g, g2, rfl⟩ := asSubset_eq h1
  constructor
  · intro t ht
    refine h t ?_
    simp only [toks, List.append_assoc, List.cons_append]
    cases hf : toks f with
    | nil => rw [hf] at ht; cases ht
    | cons x xs => rw [hf] at ht; simp only [List.tail_cons] at ht; simp [ht]
  intro a ha t ht
  refine h t ?_
  simp only [toks, List.append_assoc, List.cons_append]
  exact mem_tail_right (by simp [items_toks ha t ht])

theorem Quiet.bin {e l o r} (h : Quiet e) (h1 : asBin e = some (l, o, r)) : Quiet l ∧ Calm (toks r) := by
  obtain ⟨g, rfl⟩ := asBin_eq h1
  constructor
  · intro t ht
    refine h t ?_
    simp only [toks]
    cases hf : toks l with
    | nil => rw [hf] at ht; cases ht
    | cons x xs => rw [hf] at ht; simp only [List.tail_cons] at ht; simp [ht]
  · intro t ht
    exact h t (mem_tail_right ht)

theorem Quiet.un {e o a} (h : Quiet e) (h1 : asUn e = some (o, a)) : Calm (toks a) := by
  obtain ⟨g, rfl⟩ := asUn_eq h1
  exact fun t ht => h t ht

theorem Calm.paren {e a} (h : Calm (toks e)) (h1 : asParen e = some a) : Calm (toks a) := by
  obtain ⟨g, g2, rfl⟩ := asParen_eq h1
  exact h.sub fun t ht => by simp [toks, ht]

theorem Calm.value {a v} (h : Calm (toks a)) (h1 : argValue a = some v) : Calm (toks v) := h.sub (argValue_toks h1)

theorem Calm.valueBy {as n pos v} (h : ∀ a ∈ as, Calm (toks a)) (h1 : valueBy as n pos = some v) : Calm (toks v) := by
  obtain ⟨a, ha, hs⟩ := valueBy_toks h1
  exact (h a ha).sub hs

/-- The text a rule puts in has no comments if the replaced code has none inside. -/
def CalmRule (r : Zip → Option Edit) : Prop := ∀ z ed, r z = some ed → innerComments (toks ed.z.e) = false → Calm ed.content

theorem calm_nested {z outer inner c t} (h : nested z outer inner = some (c, t)) (hc : innerComments (toks t.e) = false) : Calm c := by
  have hq : Quiet t.e := inner_calm.mp hc
  simp only [nested, Option.bind_eq_bind, Option.bind_eq_some_iff, Option.orElse_eq_orElse, Prod.exists] at h
  obtain ⟨f, args, h1, _, _, h⟩ := h
  rcases orElse_some h with h | h
  · simp only [Option.bind_eq_some_iff, Prod.exists, Option.some.injEq, Prod.mk.injEq] at h
    obtain ⟨a, ha, v, hv, f2, args2, h2, _, _, rfl, rfl⟩ := h
    exact ((hq.args h1 a (unnamedArgs_mem (head?_mem ha))).value hv).quiet.argsText h2
  · simp only [Option.bind_eq_some_iff, Prod.exists] at h
    obtain ⟨q, hq', l, o, r, hb, _, ho, h⟩ := h
    rcases orElse_some h with h | h
    · simp only [Option.bind_eq_some_iff, Prod.exists, Option.some.injEq, Prod.mk.injEq] at h
      obtain ⟨f2, args2, h2, _, _, rfl, rfl⟩ := h
      exact (hq.bin hb).1.argsText h2
    · simp only [Option.bind_eq_some_iff, Prod.exists, Option.some.injEq, Prod.mk.injEq] at h
      obtain ⟨c', o2, r2, h3, _, ho2, f2, args2, _, _, _, _, _, rfl, rfl⟩ := h
      exact ((hq.bin hb).1.bin h3).1.trimmed

theorem calm_anyIsNa : CalmRule anyIsNa := by
  intro z ed h hc
  unrule anyIsNa h
  obtain ⟨c, t, h, rfl⟩ := h
  exact (calm_nested h hc).callText

theorem calm_anyDuplicated : CalmRule anyDuplicated := by
  intro z ed h hc
  unrule anyDuplicated h
  obtain ⟨c, t, h, rfl⟩ := h
  exact (calm_nested h hc).callText.comma (Calm.one _)

theorem calm_whichGrepl : CalmRule whichGrepl := by
  intro z ed h hc
  unrule whichGrepl h
  obtain ⟨c, t, h, rfl⟩ := h
  exact (calm_nested h hc).callText

theorem calm_lengthLevels : CalmRule lengthLevels := by
  intro z ed h hc
  unrule lengthLevels h
  obtain ⟨c, t, h, rfl⟩ := h
  exact (calm_nested h hc).callText

theorem calm_lengthTest : CalmRule lengthTest := by
  intro z ed h hc
  unrule lengthTest h
  obtain ⟨f, args, h1, _, _, a, ha, v, hv, l, o, r, hb, _, _, rfl⟩ := h
  have hv' := ((Quiet.args (inner_calm.mp hc) h1 a (head?_mem ha)).value hv).quiet.bin hb
  exact hv'.1.trimmed.callText.comma hv'.2.trimmed

theorem calm_outerNegation : CalmRule outerNegation := by
  intro z ed h hc
  unrule outerNegation h
  obtain ⟨_, _, f, args, h1, new, _, a, ha, _, _, v, hv, o, e, hu, _, _, rfl⟩ := h
  exact (((Quiet.args (inner_calm.mp hc) h1 a (List.mem_of_getElem? ha)).value hv).quiet.un hu).trimmed.callText.tk

theorem calm_redundantIfelse : CalmRule redundantIfelse := by
  intro z ed h hc
  unrule redundantIfelse h
  obtain ⟨f, args, h1, n1, n2, n3, _, _, _, c, hcv, t, _, e, _, h⟩ := h
  split at h
  · cases h
    exact Calm.valueBy (Quiet.args (inner_calm.mp hc) h1) hcv
  · split at h
    · cases h
      exact (((Calm.valueBy (Quiet.args (inner_calm.mp hc) h1) hcv).append (Calm.one _)).tk).tk
    · cases h

theorem calm_allEqualFalse : CalmRule allEqualFalse := by
  intro z ed h hc
  unrule allEqualFalse h
  obtain ⟨c, t, h, rfl⟩ := h
  exact (calm_nested h hc).callText.callText.tk

theorem calm_allEqualTrue : CalmRule allEqualTrue := by
  intro z ed h hc
  unrule allEqualTrue h
  obtain ⟨_, _, f, args, h1, _, _, h⟩ := h
  split at h
  · cases h; exact (Quiet.trimmed (inner_calm.mp hc)).callText
  · cases h; exact (Quiet.trimmed (inner_calm.mp hc)).callText
  · cases h; exact (Quiet.trimmed (inner_calm.mp hc)).callText
  · simp only [Option.bind_eq_some_iff, Option.some.injEq] at h
    obtain ⟨_, _, rfl⟩ := h
    exact (Calm.trimmed (Quiet.un (inner_calm.mp hc) rfl)).callText.tk
  · cases h

theorem calm_classAndString {l r c s} (hl : Quiet l) (hr : Quiet r) (h : classAndString l r = some (c, s)) : Calm c ∧ Calm s := by
  simp only [classAndString, Option.bind_eq_bind, Option.orElse_eq_orElse] at h
  rcases orElse_some h with h | h
  · simp only [Option.bind_eq_some_iff, Prod.exists, Option.some.injEq, Prod.mk.injEq] at h
    obtain ⟨f, args, h1, _, _, _, _, a, ha, rfl, rfl⟩ := h
    exact ⟨(hl.args h1 a (List.mem_of_getElem? ha)).trimmed, hr.trimmed⟩
  · simp only [Option.bind_eq_some_iff, Prod.exists, Option.some.injEq, Prod.mk.injEq] at h
    obtain ⟨f, args, h1, _, _, _, _, a, ha, rfl, rfl⟩ := h
    exact ⟨(hr.args h1 a (List.mem_of_getElem? ha)).trimmed, hl.trimmed⟩

theorem calm_classIdentical : CalmRule classIdentical := by
  intro z ed h hc
  unrule classIdentical h
  obtain ⟨f, args, h1, _, _, a, ha, b, hb, va, hva, vb, hvb, c, s, h, rfl⟩ := h
  have hi := Quiet.args (inner_calm.mp hc) h1
  obtain ⟨hc, hs⟩ := calm_classAndString ((hi a (List.mem_of_getElem? ha)).value hva).quiet ((hi b (List.mem_of_getElem? hb)).value hvb).quiet h
  exact (hc.comma hs).callText

theorem calm_lengths : CalmRule lengths := by
  intro z ed h hc
  unrule lengths h
  obtain ⟨f, args, h1, _, _, fn, _, v, _, _, _, x, hx, rfl⟩ := h
  exact (Quiet.args (inner_calm.mp hc) h1 x (argBy_mem hx)).trimmed.callText

theorem calm_sampleInt : CalmRule sampleInt := by
  intro z ed h hc
  unrule sampleInt h
  obtain ⟨f, args, h1, _, _, n, hn, l, o, r, hb, _, _, _, ho, rfl⟩ := h
  have hi := Quiet.args (inner_calm.mp hc) h1
  have hr := (Calm.valueBy hi hn).quiet.bin hb
  refine Calm.callText ?_
  split
  · next as has => exact hr.2.trimmed.comma (Calm.joined fun b hb => hi b (dropArg_mem has hb))
  · exact hr.2.trimmed

theorem calm_grepv : CalmRule grepv := by
  intro z ed h hc
  unrule grepv h
  obtain ⟨f, args, h1, _, _, _, _, rfl⟩ := h
  refine Calm.callText (Calm.joined fun b hb => ?_)
  cases hd : dropArg (items args) (cs! "value") 4 with
  | none => rw [hd] at hb; simp at hb
  | some as => rw [hd] at hb; exact Quiet.args (inner_calm.mp hc) h1 b (dropArg_mem hd hb)

theorem calm_systemFile : CalmRule systemFile := by
  intro z ed h hc
  unrule systemFile h
  obtain ⟨f, args, h1, _, _, _, _, q, hq, v, hv, g, inner, h2, _, _, rfl⟩ := h
  have hi := Quiet.args (inner_calm.mp hc) h1
  have hvok := ((hi q (unnamedArgs_mem (List.mem_filter.mp (head?_mem hq)).1)).value hv).quiet
  refine Calm.callText (Calm.comma (Calm.joined fun b hb => ?_) (Calm.joined fun b hb => hi b (namedArgs_mem hb)))
  exact hvok.args h2 b (List.mem_filter.mp hb).1

theorem calm_list2df : CalmRule list2df := by
  intro z ed h hc
  unrule list2df h
  obtain ⟨f, args, h1, _, _, what, _, x, hx, _, _, w, _, _, _, v, hv, rfl⟩ := h
  exact ((Quiet.args (inner_calm.mp hc) h1 x (argBy_mem hx)).value hv).trimmed.callText

theorem calm_matrixApply : CalmRule matrixApply := by
  intro z ed h hc
  unrule matrixApply h
  obtain ⟨f, args, h1, _, _, _, _, x, hx, fn, _, _, _, m, _, _, _, rfl⟩ := h
  have hi := Quiet.args (inner_calm.mp hc) h1
  refine Calm.callText ?_
  split
  · next a ha => exact (Calm.valueBy hi hx).trimmed.comma (hi a (argByName_mem ha)).trimmed
  · exact (Calm.valueBy hi hx).trimmed

theorem calm_seqText {name c} (h : Calm c) : Calm (seqText name c) := by
  unfold seqText
  split
  · exact h.callText
  · exact h.callText.callText

theorem calm_seq2 : CalmRule seq2 := by
  intro z ed h hc
  unrule seq2 h
  obtain ⟨f, args, h1, _, _, _, _, a, ha, v, hv, f2, args2, h2, _, _, rfl⟩ := h
  exact calm_seqText (((Quiet.args (inner_calm.mp hc) h1 a (unnamedArgs_mem (head?_mem ha))).value hv).quiet.argsText h2)

theorem calm_fixedRegex : CalmRule fixedRegex := by
  intro z ed h hc
  unrule fixedRegex h
  obtain ⟨f, args, h1, pos, _, _, _, _, _, q, _, s, _, _, _, kept, hk, rfl⟩ := h
  have hi := Quiet.args (inner_calm.mp hc) h1
  refine Calm.callText (Calm.comma (Calm.joined fun b hb => ?_) (Calm.one _).tk.tk)
  revert hk
  repeat' split
  all_goals (intro hk; first | exact hi b (dropArg_mem hk hb) | (cases hk; exact hi b hb) | (cases hk; done))

theorem calm_expectNamed : CalmRule expectNamed := by
  intro z ed h hc
  unrule expectNamed h
  obtain ⟨f, args, h1, _, _, obj, ho, exp, he, nf, nargs, h2, _, _, _, _, x, hx, rfl⟩ := h
  have hi := Quiet.args (inner_calm.mp hc) h1
  exact ((Calm.valueBy ((Calm.valueBy hi ho).quiet.args h2) hx).trimmed.comma (Calm.valueBy hi he).trimmed).prefixedText

theorem calm_expectTrueFalse : CalmRule expectTrueFalse := by
  intro z ed h hcc
  unrule expectTrueFalse h
  obtain ⟨f, args, h1, _, _, obj, ho, exp, he, b, other, hc, rfl⟩ := h
  have hi := Quiet.args (inner_calm.mp hcc) h1
  have : Calm (toks other) := by
    revert hc
    repeat' split
    all_goals (intro hc; first | (cases hc; done) | cases hc; first | exact Calm.valueBy hi ho | exact Calm.valueBy hi he)
  exact this.trimmed.prefixedText

theorem calm_expectNot : CalmRule expectNot := by
  intro z ed h hc
  unrule expectNot h
  obtain ⟨f, args, h1, _, _, obj, ho, _, _, o, a, h2, _, hob, _, _, rfl⟩ := h
  have ha := (Calm.valueBy (Quiet.args (inner_calm.mp hc) h1) ho).quiet.un h2
  refine Calm.prefixedText (Calm.trimmed ?_)
  split
  · next b hb => exact ha.paren hb
  · exact ha

theorem calm_expectNull : CalmRule expectNull := by
  intro z ed h hcc
  unrule expectNull h
  obtain ⟨f, args, h1, h⟩ := h
  split at h
  · simp only [Option.bind_eq_some_iff, Option.some.injEq] at h
    obtain ⟨obj, ho, exp, he, other, hc, rfl⟩ := h
    have hi := Quiet.args (inner_calm.mp hcc) h1
    have : Calm (toks other) := by
      revert hc
      repeat' split
      all_goals (intro hc; first | (cases hc; done) | cases hc; first | exact Calm.valueBy hi ho | exact Calm.valueBy hi he)
    exact this.trimmed.prefixedText
  · simp only [Option.bind_eq_some_iff, Option.some.injEq, Prod.exists] at h
    obtain ⟨_, _, obj, ho, g, iargs, h2, _, _, x, hx, rfl⟩ := h
    have hi := Quiet.args (inner_calm.mp hcc) h1
    exact (Calm.valueBy ((Calm.valueBy hi ho).quiet.args h2) hx).trimmed.prefixedText

theorem calm_expectLength : CalmRule expectLength := by
  intro z ed h hcc
  unrule expectLength h
  obtain ⟨f, args, h1, _, _, obj, ho, exp, he, _, _, c, other, hc, _, _, g, largs, h2, x, hx, rfl⟩ := h
  have hi := Quiet.args (inner_calm.mp hcc) h1
  have : Calm (toks c) ∧ Calm (toks other) := by
    revert hc
    repeat' split
    all_goals (intro hc; first | (cases hc; done) | cases hc; first | exact ⟨Calm.valueBy hi ho, Calm.valueBy hi he⟩ | exact ⟨Calm.valueBy hi he, Calm.valueBy hi ho⟩)
  exact ((Calm.valueBy (this.1.quiet.args h2) hx).trimmed.comma this.2.trimmed).prefixedText

theorem calm_expectType : CalmRule expectType := by
  intro z ed h hcc
  unrule expectType h
  obtain ⟨f, args, h1, h⟩ := h
  split at h
  · simp only [Option.bind_eq_some_iff, Option.some.injEq, Prod.exists] at h
    obtain ⟨_, _, obj, ho, exp, he, c, other, hc, g, iargs, h2, x, hx, rfl⟩ := h
    have hi := Quiet.args (inner_calm.mp hcc) h1
    have : Calm (toks c) ∧ Calm (toks other) := by
      revert hc
      repeat' split
      all_goals (intro hc; first | (cases hc; done) | cases hc; first | exact ⟨Calm.valueBy hi ho, Calm.valueBy hi he⟩ | exact ⟨Calm.valueBy hi he, Calm.valueBy hi ho⟩)
    exact ((Calm.valueBy (this.1.quiet.args h2) hx).trimmed.comma this.2.trimmed).prefixedText
  · simp only [Option.bind_eq_some_iff, Option.some.injEq, Prod.exists] at h
    obtain ⟨_, _, _, _, obj, ho, g, iargs, h2, ty, _, x, hx, rfl⟩ := h
    have hi := Quiet.args (inner_calm.mp hcc) h1
    exact ((Calm.valueBy ((Calm.valueBy hi ho).quiet.args h2) hx).trimmed.comma (Calm.one _)).prefixedText

theorem calm_expectS3Class : CalmRule expectS3Class := by
  intro z ed h hcc
  unrule expectS3Class h
  obtain ⟨f, args, h1, _, _, obj, ho, exp, he, _, _, vo, hvo, ve, hve, c, other, hc, s, _, _, _, g, iargs, h2, x, hx, rfl⟩ := h
  have hi := Quiet.args (inner_calm.mp hcc) h1
  have o1 := (hi _ (argBy_mem ho)).value hvo
  have o2 := (hi _ (argBy_mem he)).value hve
  have : Calm (toks c) ∧ Calm (toks other) := by
    revert hc
    repeat' split
    all_goals (intro hc; first | (cases hc; done) | cases hc; first | exact ⟨o1, o2⟩ | exact ⟨o2, o1⟩)
  exact ((Calm.valueBy (this.1.quiet.args h2) hx).trimmed.comma this.2.trimmed).prefixedText

theorem calm_expectMatch (outer new : Str) : CalmRule (expectMatch · outer new) := by
  intro z ed h hcc
  unrule expectMatch h
  obtain ⟨f, args, h1, _, _, _, _, obj, ho, g, gargs, h2, _, _, ip, _, ix, _, x, ⟨ax, hax, hx⟩, q, ⟨aq, haq, hq⟩, _, _, _, _, rfl⟩ := h
  have hi := (Calm.valueBy (Quiet.args (inner_calm.mp hcc) h1) ho).quiet.args h2
  refine Calm.prefixedText (Calm.join fun c hc => ?_)
  simp only [List.mem_cons] at hc
  rcases hc with rfl | rfl | hc
  · exact ((hi _ (List.mem_of_getElem? hax)).value hx).trimmed
  · exact ((hi _ (List.mem_of_getElem? haq)).value hq).trimmed
  · obtain ⟨a, ha, rfl⟩ := List.mem_map.mp hc
    obtain ⟨b, hb, rfl⟩ := List.mem_map.mp ha
    have := (List.mem_filter.mp hb).1
    exact (hi _ (by obtain ⟨x, i⟩ := b; exact List.mem_of_getElem? (List.mem_zipIdx_iff_getElem?.mp this))).trimmed

theorem calm_anyIsNa2 : CalmRule anyIsNa2 := by
  intro z ed h hc
  unrule anyIsNa2 h
  obtain ⟨l, o, r, h1, _, ho, _, _, rfl⟩ := h
  exact (Quiet.bin (inner_calm.mp hc) h1).2.trimmed.callText

theorem calm_bang {c} {p : Prop} [Decidable p] (h : Calm c) : Calm (if p then tk (.op .bang) :: c else c) := by
  split
  · exact h.tk
  · exact h

theorem calm_equalsSpecial (special name both) : CalmRule (equalsSpecial special name both) := by
  intro z ed h hc
  unrule equalsSpecial h
  obtain ⟨l, o, r, h1, _, ho, _, _, _, _, rfl⟩ := h
  have hb := Quiet.bin (inner_calm.mp hc) h1
  refine calm_bang (Calm.callText ?_)
  split
  · exact hb.2.trimmed
  · exact hb.1.trimmed

theorem calm_isNumeric : CalmRule isNumeric := by
  intro z ed h hc
  unrule isNumeric h
  obtain ⟨l, o, r, h1, _, ho, fl, al, h2, fr, ar, h3, _, _, _, _, rfl⟩ := h
  exact ((Quiet.bin (inner_calm.mp hc) h1).1.argsText h2).callText

theorem calm_redundantEquals : CalmRule redundantEquals := by
  intro z ed h hcc
  unrule redundantEquals h
  obtain ⟨l, o, r, h1, _, ho, keep, other, hc, rfl⟩ := h
  have hb := Quiet.bin (inner_calm.mp hcc) h1
  have : Calm (trimmed other) := by
    revert hc
    repeat' split
    all_goals (intro hc; first | (cases hc; done) | cases hc; first | exact hb.1.trimmed | exact hb.2.trimmed)
  show Calm (if keep then trimmed other else _)
  split
  · exact this
  · exact this.tk

theorem calm_classEquals : CalmRule classEquals := by
  intro z ed h hcc
  unrule classEquals h
  obtain ⟨l, o, r, h1, _, ho, _, _, c, s, hcs, rfl⟩ := h
  have hb := Quiet.bin (inner_calm.mp hcc) h1
  obtain ⟨hc, hs⟩ := calm_classAndString hb.1 hb.2.quiet hcs
  exact calm_bang (hc.comma hs).callText

theorem calm_seq : CalmRule seq := by
  intro z ed h hc
  unrule seq h
  obtain ⟨l, o, r, h1, _, ho, f, args, h2, _, _, _, _, rfl⟩ := h
  exact calm_seqText (Calm.joined ((Quiet.bin (inner_calm.mp hc) h1).2.quiet.args h2))

theorem calm_stringBoundary : CalmRule stringBoundary := by
  intro z ed h hcc
  unrule stringBoundary h
  obtain ⟨l, o, r, h1, _, ho, c, s, hcs, f, args, h2, _, _, x, ⟨ax, hax, hx⟩, _, _, _, _, name, _, rfl⟩ := h
  have hb := Quiet.bin (inner_calm.mp hcc) h1
  have : Quiet c ∧ Quiet s := by
    revert hcs
    repeat' split
    all_goals (intro hc; first | (cases hc; done) | cases hc; first | exact ⟨hb.1, hb.2.quiet⟩ | exact ⟨hb.2.quiet, hb.1⟩)
  exact calm_bang ((((this.1.args h2 _ (List.mem_of_getElem? hax)).value hx).trimmed.comma this.2.trimmed).callText)

theorem calm_assignment (want) : CalmRule (assignment want) := by
  intro z ed h hcc
  unrule assignment h
  obtain ⟨l, o, r, h1, h⟩ := h
  revert h
  generalize (if want = Op.assign then Op.eq else Op.assign) = other
  intro h
  split at h
  · cases h
    have hb := Quiet.bin (inner_calm.mp hcc) h1
    exact hb.1.trimmed.comma hb.2.trimmed
  · split at h
    · cases h
      have hb := Quiet.bin (inner_calm.mp hcc) h1
      exact hb.2.trimmed.comma hb.1.trimmed
    · cases h

theorem calm_comparisonNegation : CalmRule comparisonNegation := by
  intro z ed h hc
  unrule comparisonNegation h
  obtain ⟨o, a, h1, _, _, b, h2, l, o2, r, h3, o3, _, rfl⟩ := h
  have hb := ((Quiet.un (inner_calm.mp hc) h1).paren h2).quiet.bin h3
  exact hb.1.trimmed.comma hb.2.trimmed

theorem calm_sortRule : CalmRule sortRule := by
  intro z ed h hcc
  unrule sortRule h
  obtain ⟨x, args, h1, _, _, a, ha, _, _, v, hv, f, oargs, h2, _, _, _, _, u, hu, _, hs, rfl⟩ := h
  have hi := Quiet.subset (inner_calm.mp hcc) h1
  have ho := ((hi.2 a (head?_mem ha)).value hv).quiet.args h2
  refine Calm.callText (Calm.join fun c hc => ?_)
  simp only [List.mem_cons] at hc
  rcases hc with rfl | hc
  · exact hi.1.trimmed
  · obtain ⟨b, hb, rfl⟩ := List.mem_map.mp hc
    obtain ⟨n, _, hn⟩ := List.mem_filterMap.mp hb
    exact (ho b (argByName_mem hn)).trimmed

theorem calm_numericLeadingZero : CalmRule numericLeadingZero := by
  intro z ed h _
  unfold numericLeadingZero at h
  split at h
  · cases h; exact Calm.one _
  · cases h; exact Calm.one _
  · cases h

theorem calm_trueFalseSymbol : CalmRule trueFalseSymbol := by
  intro z ed h _
  unrule trueFalseSymbol h
  obtain ⟨k, new, hc, _, _, rfl⟩ := h
  exact Calm.one _

theorem calm_sprintfRule : CalmRule sprintfRule := by
  intro z ed h _
  obtain ⟨f, args, a, g, s, t, n, h1, _, _, _, _, rfl⟩ := sprintfRule_some h
  exact Calm.one _

theorem calm_repeatRule : CalmRule repeatRule := by
  intro z ed h hc
  obtain ⟨fs, e⟩ := z
  unfold repeatRule at h
  split at h
  · next g g2 c g3 b he =>
    simp only at he; subst he
    split at h
    · cases h
      have hb : Calm (trimmed b) := Calm.trimmed fun t ht => inner_calm.mp hc t (by simp [fixAt, toks, ht])
      show Calm (tk .repeat :: inBraces b)
      unfold inBraces
      split
      · exact hb.tk
      · exact (hb.append (Calm.one _)).tk.tk
    · cases h
  · cases h

theorem calm_single {e} (h : Calm (toks e)) : Calm (trimmed (singleStatement e)) := by
  unfold singleStatement
  split
  · exact Calm.trimmed (h.sub fun t ht => by simp [toks, ht])
  · exact h.trimmed

theorem calm_coalesce : CalmRule coalesce := by
  intro z ed h hc
  obtain ⟨fs, e⟩ := z
  unfold coalesce at h
  split at h
  · next g g2 c g3 t g4 el he =>
    simp only at he; subst he
    simp only [Option.bind_eq_bind, Option.bind_eq_some_iff, Prod.exists, Option.some.injEq] at h
    obtain ⟨call, same, other, hpick, f, args, hcall, _, _, _, _, x, hx, _, _, rfl⟩ := h
    have hq := inner_calm.mp hc
    have hcm : ∀ t' ∈ toks c, t' ∈ (toks (.ifElse g g2 c g3 t g4 el)).tail := fun t' ht => by simp [toks, ht]
    have hcc : Calm (toks call) := by
      revert hpick
      split
      · intro h; cases h; exact fun t ht => hq t (hcm t ht)
      · intro h; cases h; exact fun t ht => hq t (by simp [toks, ht])
      · intro h; cases h
    have hot : Calm (toks other) := by
      revert hpick
      split
      · intro h; cases h; exact fun t ht => hq t (by simp [toks, ht])
      · intro h; cases h; exact fun t ht => hq t (by simp [toks, ht])
      · intro h; cases h
    obtain ⟨av, hav, hxv⟩ := List.mem_filterMap.mp (head?_mem hx)
    simp only
    split
    · exact Calm.nil
    · exact (((hcc.quiet.args hcall av hav).value hxv).trimmed).comma (calm_single hot)
  · cases h

theorem calm_condText {c} (h : Calm (toks c)) : Calm (condText c) := by
  unfold condText
  split
  · exact h.trimmed
  · exact (h.append (Calm.one _)).tk

theorem calm_unnecessaryNesting : CalmRule unnecessaryNesting := by
  intro z ed h hc
  obtain ⟨fs, e⟩ := z
  unfold unnecessaryNesting at h
  split at h
  · next g g2 c g3 gb gi gi2 c2 gi3 t2 semis gb2 he =>
    simp only at he; subst he
    cases h
    have hq := inner_calm.mp hc
    have h1 : Calm (toks c) := fun t ht => hq t (by simp [fixAt, toks, ht])
    have h2 : Calm (toks c2) := fun t ht => hq t (by simp [fixAt, toks, ht])
    have h3 : Calm (toks t2) := fun t ht => hq t (by simp [fixAt, toks, ht])
    show Calm (tk .if :: tk (.open .par) :: condText c ++ tk (.op .and2) :: condText c2 ++ tk (.close .par) :: trimmed t2)
    exact ((((calm_condText h1).comma (calm_condText h2)).comma h3.trimmed).tk).tk
  · cases h

theorem calm_rules (want : Op) : ∀ q ∈ fixRules want, CalmRule q.2 := by
  simp only [fixRules, keepingRules, roomRules, List.cons_append, List.nil_append, List.forall_mem_cons, List.not_mem_nil, false_imp_iff, implies_true, and_true]
  exact ⟨calm_allEqualTrue, calm_anyIsNa, calm_anyIsNa2, calm_classIdentical, calm_classEquals, calm_equalsSpecial _ _ _, calm_equalsSpecial _ _ _, calm_equalsSpecial _ _ _,
    calm_expectLength, calm_expectMatch _ _, calm_expectNamed, calm_expectMatch _ _, calm_expectNull, calm_expectS3Class, calm_expectTrueFalse,
    calm_expectType, calm_fixedRegex, calm_grepv, calm_isNumeric, calm_lengthLevels, calm_lengths, calm_list2df, calm_matrixApply,
    calm_numericLeadingZero, calm_redundantEquals, calm_sampleInt, calm_seq, calm_seq2, calm_sortRule, calm_stringBoundary, calm_systemFile,
    calm_trueFalseSymbol, calm_whichGrepl, calm_sprintfRule, calm_allEqualFalse, calm_anyDuplicated, calm_comparisonNegation, calm_lengthTest,
    calm_outerNegation, calm_redundantIfelse, calm_assignment want, calm_coalesce, calm_expectNot, calm_repeatRule, calm_unnecessaryNesting⟩

/-- The new code is not empty. -/
def FullRule (r : Zip → Option Edit) : Prop :=
  ∀ ts p z ed, Parses ts p → z.prog = p → r z = some ed → ed.skip = false → innerComments (toks ed.z.e) = false → ed.content ≠ []

theorem full_keeping : ∀ q ∈ keepingRules, FullRule q.2 := by
  intro q hq ts p z ed hp hz h _ hc hn
  obtain ⟨h1, h2, e', he', ht, hpe⟩ := C51_fixes_keep_structure q hq ts p z ed hp hz h hc
  rw [hn] at ht
  exact expr_toks he' (WF_plug hpe.2.1) ht

theorem full_room : ∀ q ∈ roomRules, FullRule q.2 := by
  simp only [roomRules, List.forall_mem_cons, List.not_mem_nil, false_imp_iff, implies_true, and_true]
  refine ⟨?_, ?_, ?_, ?_, ?_, ?_⟩ <;> intro ts p z ed hp hz h _ _
  · unrule allEqualFalse h
    obtain ⟨c, t, h, rfl⟩ := h
    simp [fixAt]
  · unrule anyDuplicated h
    obtain ⟨c, t, h, rfl⟩ := h
    simp [fixAt]
  · unrule comparisonNegation h
    obtain ⟨o, a, h1, _, _, b, h2, l, o2, r, h3, o3, _, rfl⟩ := h
    simp [fixAt]
  · unrule lengthTest h
    obtain ⟨f, args, h1, _, _, a, ha, v, hv, l, o, r, hb, _, _, rfl⟩ := h
    simp [fixAt]
  · unrule outerNegation h
    obtain ⟨_, _, f, args, h1, new, _, a, ha, _, _, v, hv, o, e, hu, _, _, rfl⟩ := h
    simp [fixAt]
  · have hw := at_place hp hz
    unrule redundantIfelse h
    obtain ⟨f, args, h1, n1, n2, n3, _, _, _, c, hcv, t, _, e, _, h⟩ := h
    have hok := valueBy_ok (asCall_items hw h1) hcv
    split at h
    · cases h; exact expr_toks hok.expr hok.wf
    · split at h
      · cases h; simp [fixAt]
      · cases h

theorem full_rules (want : Op) : ∀ q ∈ fixRules want, FullRule q.2 := by
  intro q hq
  rw [fixRules, List.mem_append, List.mem_append] at hq
  rcases hq with (hq | hq) | hq
  · exact full_keeping q hq
  · exact full_room q hq
  revert q
  simp only [List.forall_mem_cons, List.not_mem_nil, false_imp_iff, implies_true, and_true]
  refine ⟨?_, ?_, ?_, ?_, ?_⟩ <;> intro ts p z ed hp hz h hs _
  · unrule assignment h
    obtain ⟨l, o, r, h1, h⟩ := h
    revert h
    generalize (if want = Op.assign then Op.eq else Op.assign) = other
    intro h
    split at h
    · cases h; simp
    · split at h
      · cases h; simp
      · cases h
  · obtain ⟨fs, e⟩ := z
    unfold coalesce at h
    split at h
    · simp only [Option.bind_eq_bind, Option.bind_eq_some_iff, Prod.exists, Option.some.injEq] at h
      obtain ⟨call, same, other, hpick, f, args, hcall, _, _, _, _, x, hx, _, _, rfl⟩ := h
      have hsk := (Bool.or_eq_false_iff.mp hs).2
      simp [hsk]
    · cases h
  · unrule expectNot h
    obtain ⟨f, args, h1, _, _, obj, ho, _, _, o, a, h2, _, hob, _, _, rfl⟩ := h
    simp [fixAt, prefixedText]
  · unfold repeatRule at h
    split at h
    · split at h
      · cases h; simp [fixAt]
      · cases h
    · cases h
  · unfold unnecessaryNesting at h
    split at h
    · cases h; simp [fixAt]
    · cases h

theorem joinHead_comments {g c} (hc : Calm c) (hn : c ≠ []) : comments (joinHead g c) = gapComments g := by
  cases c with
  | nil => exact absurd rfl hn
  | cons t ts =>
    have h1 : t.gap.comment = false := hc t (by simp)
    have h2 : comments ts = [] := comments_nil.mpr fun u hu => hc u (by simp [hu])
    simp only [joinHead, comments, h2, List.append_nil]
    revert h1
    cases t.gap with
    | none => intro _; cases g <;> rfl
    | line a b =>
      cases a <;> cases b <;> intro h1 <;> first | (cases h1; done) | skip
      cases g with
      | none => rfl
      | line x y => cases x <;> cases y <;> rfl

theorem inside_comments {ed : Edit} : commentInside ed ↔ innerComments (toks ed.z.e) = true := by
  unfold commentInside
  rw [Ne, comments_nil, ← inner_calm]
  simp

/-- A fix of code without comments inside keeps the comments. -/
theorem keeps_of_calm {ed : Edit} (hc : Calm ed.content) (hn : ed.content ≠ []) (hi : innerComments (toks ed.z.e) = false) : KeepsComments ed := by
  have key : comments (joinHead (headGap (toks ed.z.e)) ed.content) = comments (toks ed.z.e) := by
    rw [joinHead_comments hc hn]
    have := comments_nil.mpr (inner_calm.mp hi)
    cases ht : toks ed.z.e with
    | nil => rfl
    | cons t ts => rw [ht] at this; simp only [List.tail_cons] at this; simp [comments, headGap, this]
  refine ⟨key, ?_⟩
  rw [edited, Zip.prog, toks_plug]
  simp only [comments_append, key]

/-- Every fix of every rule, of code with no comment inside, keeps the comments around it. -/
theorem C64_comments_around (want : Op) (q) (hq : q ∈ fixRules want) (ts p z ed) (hp : Parses ts p) (hz : z.prog = p) (h : q.2 z = some ed)
    (hs : ed.skip = false) (hi : ¬ commentInside ed) : KeepsComments ed := by
  have hi' : innerComments (toks ed.z.e) = false := by rw [inside_comments] at hi; simpa using hi
  exact keeps_of_calm (calm_rules want q hq z ed h hi') (full_rules want q hq ts p z ed hp hz h hs hi') hi'

theorem checked {z : Zip} (h : containsComments z = false) (h1 : (headGap (toks z.e)).own = false) (h2 : (headGap (afterToks z.fs)).trail = false) :
    innerComments (toks z.e) = false := by
  have key : containsComments z = ((innerComments (toks z.e) || (headGap (toks z.e)).own || (headGap (afterToks z.fs)).trail) &&
      !(headGap (afterToks z.fs)).trail && !(headGap (toks z.e)).own) := by
    unfold containsComments headGap
    cases toks z.e <;> cases afterToks z.fs <;> rfl
  rw [key, h1, h2] at h
  simpa using h

/-- A rule that looks for comments in what it replaces. -/
def ChecksComments (r : Zip → Option Edit) : Prop :=
  ∀ z ed, r z = some ed → ed.skip = false → commentAbove ed = false → commentBehind ed = false → innerComments (toks ed.z.e) = false

theorem checks_fixAt {z c ed} (h : fixAt z c = ed) (hs : ed.skip = false) (h1 : commentAbove ed = false) (h2 : commentBehind ed = false) :
    innerComments (toks ed.z.e) = false := by
  subst h
  exact checked hs h1 h2

/-- Take a rule apart down to the fix it proposes. -/
macro "checks" n:ident : tactic => `(tactic| (intro z ed h; unrule $n:ident h; repeat (first | exact checks_fixAt h | obtain ⟨_, h⟩ := h)))

theorem checks_anyIsNa : ChecksComments anyIsNa := by checks anyIsNa
theorem checks_anyIsNa2 : ChecksComments anyIsNa2 := by checks anyIsNa2
theorem checks_anyDuplicated : ChecksComments anyDuplicated := by checks anyDuplicated
theorem checks_whichGrepl : ChecksComments whichGrepl := by checks whichGrepl
theorem checks_lengthLevels : ChecksComments lengthLevels := by checks lengthLevels
theorem checks_lengthTest : ChecksComments lengthTest := by checks lengthTest
theorem checks_outerNegation : ChecksComments outerNegation := by checks outerNegation
theorem checks_allEqualFalse : ChecksComments allEqualFalse := by checks allEqualFalse
theorem checks_classIdentical : ChecksComments classIdentical := by checks classIdentical
theorem checks_classEquals : ChecksComments classEquals := by checks classEquals
theorem checks_lengths : ChecksComments lengths := by checks lengths
theorem checks_sampleInt : ChecksComments sampleInt := by checks sampleInt
theorem checks_grepv : ChecksComments grepv := by checks grepv
theorem checks_systemFile : ChecksComments systemFile := by checks systemFile
theorem checks_list2df : ChecksComments list2df := by checks list2df
theorem checks_matrixApply : ChecksComments matrixApply := by checks matrixApply
theorem checks_seq : ChecksComments seq := by checks seq
theorem checks_seq2 : ChecksComments seq2 := by checks seq2
theorem checks_fixedRegex : ChecksComments fixedRegex := by checks fixedRegex
theorem checks_expectNamed : ChecksComments expectNamed := by checks expectNamed
theorem checks_expectTrueFalse : ChecksComments expectTrueFalse := by checks expectTrueFalse
theorem checks_expectNot : ChecksComments expectNot := by checks expectNot
theorem checks_expectLength : ChecksComments expectLength := by checks expectLength
theorem checks_expectS3Class : ChecksComments expectS3Class := by checks expectS3Class
theorem checks_expectMatch (outer new : Str) : ChecksComments (expectMatch · outer new) := by checks expectMatch
theorem checks_equalsSpecial (special name both) : ChecksComments (equalsSpecial special name both) := by checks equalsSpecial
theorem checks_isNumeric : ChecksComments isNumeric := by checks isNumeric
theorem checks_redundantEquals : ChecksComments redundantEquals := by checks redundantEquals
theorem checks_stringBoundary : ChecksComments stringBoundary := by checks stringBoundary
theorem checks_comparisonNegation : ChecksComments comparisonNegation := by checks comparisonNegation
theorem checks_sortRule : ChecksComments sortRule := by checks sortRule

theorem checks_sprintfRule : ChecksComments sprintfRule := by
  intro z ed h
  obtain ⟨f, args, a, g, s, t, n, h1, _, _, _, _, he⟩ := sprintfRule_some h
  exact checks_fixAt he.symm

theorem checks_expectNull : ChecksComments expectNull := by
  intro z ed h
  unrule expectNull h
  obtain ⟨f, args, h1, h⟩ := h
  split at h
  · simp only [Option.bind_eq_some_iff, Option.some.injEq] at h
    obtain ⟨obj, ho, exp, he, other, hc, h⟩ := h
    exact checks_fixAt h
  · simp only [Option.bind_eq_some_iff, Option.some.injEq, Prod.exists] at h
    obtain ⟨_, _, obj, ho, g, iargs, h2, _, _, x, hx, h⟩ := h
    exact checks_fixAt h

theorem checks_expectType : ChecksComments expectType := by
  intro z ed h
  unrule expectType h
  obtain ⟨f, args, h1, h⟩ := h
  split at h
  · simp only [Option.bind_eq_some_iff, Option.some.injEq, Prod.exists] at h
    obtain ⟨_, _, obj, ho, exp, he, c, other, hc, g, iargs, h2, x, hx, h⟩ := h
    exact checks_fixAt h
  · simp only [Option.bind_eq_some_iff, Option.some.injEq, Prod.exists] at h
    obtain ⟨_, _, _, _, obj, ho, g, iargs, h2, ty, _, x, hx, h⟩ := h
    exact checks_fixAt h

theorem checks_redundantIfelse : ChecksComments redundantIfelse := by
  intro z ed h
  unrule redundantIfelse h
  obtain ⟨f, args, h1, n1, n2, n3, _, _, _, c, hcv, t, _, e, _, h⟩ := h
  split at h
  · exact checks_fixAt (Option.some.inj h)
  · split at h
    · exact checks_fixAt (Option.some.inj h)
    · cases h

theorem checks_numericLeadingZero : ChecksComments numericLeadingZero := by
  intro z ed h _ _ _
  unfold numericLeadingZero at h
  split at h
  · next he => cases h; rw [he]; rfl
  · next he => cases h; rw [he]; rfl
  · cases h

theorem checks_trueFalseSymbol : ChecksComments trueFalseSymbol := by
  intro z ed h _ _ _
  unrule trueFalseSymbol h
  obtain ⟨k, new, hc, _, _, rfl⟩ := h
  have : isAtom .id z.e = true := by
    revert hc
    repeat' split
    · next h => intro _; exact (Bool.and_eq_true_iff.mp h).1
    · next h => intro _; exact (Bool.and_eq_true_iff.mp h).1
    · intro h; cases h
  revert this
  show isAtom .id z.e = true → innerComments (toks z.e) = false
  cases z.e <;> simp [isAtom, toks, innerComments]

theorem checks_repeatRule : ChecksComments repeatRule := by
  intro z ed h
  unfold repeatRule at h
  split at h
  · split at h
    · exact checks_fixAt (Option.some.inj h)
    · cases h
  · cases h

theorem checks_coalesce : ChecksComments coalesce := by
  intro z ed h hs h1 h2
  unfold coalesce at h
  split at h
  · simp only [Option.bind_eq_bind, Option.bind_eq_some_iff, Prod.exists, Option.some.injEq] at h
    obtain ⟨call, same, other, hpick, f, args, hcall, _, _, _, _, x, hx, _, _, rfl⟩ := h
    exact checked (Bool.or_eq_false_iff.mp hs).1 h1 h2
  · cases h

theorem checks_unnecessaryNesting : ChecksComments unnecessaryNesting := by
  intro z ed h
  unfold unnecessaryNesting at h
  split at h
  · exact checks_fixAt (Option.some.inj h)
  · cases h

/-- `all.equal` in a condition: the call itself is replaced. -/
theorem checks_allEqualTrue {z ed} (h : allEqualTrue z = some ed) (hz : ed.z = z) (hs : ed.skip = false) (h1 : commentAbove ed = false)
    (h2 : commentBehind ed = false) : innerComments (toks ed.z.e) = false := by
  unrule allEqualTrue h
  obtain ⟨_, _, f, args, _, _, _, h⟩ := h
  split at h
  · exact checks_fixAt (Option.some.inj h) hs h1 h2
  · exact checks_fixAt (Option.some.inj h) hs h1 h2
  · exact checks_fixAt (Option.some.inj h) hs h1 h2
  · next g o fs he =>
    simp only [Option.bind_eq_some_iff, Option.some.injEq] at h
    obtain ⟨_, _, rfl⟩ := h
    have := congrArg Zip.fs hz
    rw [he] at this
    exact absurd (congrArg List.length this) (by simp)
  · cases h

/-- The rule finds comments in the code it replaces, if that is guarded. -/
def ChecksGuarded (name : Str) (r : Zip → Option Edit) : Prop :=
  ∀ z ed, r z = some ed → Guarded name ed → ed.skip = false → innerComments (toks ed.z.e) = false

theorem ChecksComments.guarded {name r} (h : ChecksComments r) : ChecksGuarded name r := fun z ed he hg hs => h z ed he hs hg.2.2.1 hg.2.2.2

theorem guarded_allEqualTrue : ChecksGuarded (cs! "all_equal") allEqualTrue := by
  intro z ed h hg hs
  refine checks_allEqualTrue h ?_ hs hg.2.2.1 hg.2.2.2
  have hu := hg.2.1 rfl
  unrule allEqualTrue h
  obtain ⟨_, _, f, args, _, _, _, h⟩ := h
  split at h
  · cases h; rfl
  · cases h; rfl
  · cases h; rfl
  · simp only [Option.bind_eq_some_iff, Option.some.injEq] at h
    obtain ⟨_, _, rfl⟩ := h
    cases hu
  · cases h

theorem checks_rules : ∀ want, ∀ q ∈ fixRules want, ChecksGuarded q.1 q.2 := by
  intro want
  simp only [fixRules, keepingRules, roomRules, List.cons_append, List.nil_append, List.forall_mem_cons, List.not_mem_nil, false_imp_iff, implies_true, and_true]
  exact ⟨guarded_allEqualTrue, checks_anyIsNa.guarded, checks_anyIsNa2.guarded, checks_classIdentical.guarded, checks_classEquals.guarded,
    (checks_equalsSpecial _ _ _).guarded, (checks_equalsSpecial _ _ _).guarded, (checks_equalsSpecial _ _ _).guarded,
    checks_expectLength.guarded, (checks_expectMatch _ _).guarded, checks_expectNamed.guarded, (checks_expectMatch _ _).guarded, checks_expectNull.guarded,
    checks_expectS3Class.guarded, checks_expectTrueFalse.guarded,
    checks_expectType.guarded, checks_fixedRegex.guarded, checks_grepv.guarded, checks_isNumeric.guarded, checks_lengthLevels.guarded, checks_lengths.guarded,
    checks_list2df.guarded, checks_matrixApply.guarded,
    checks_numericLeadingZero.guarded, checks_redundantEquals.guarded, checks_sampleInt.guarded, checks_seq.guarded, checks_seq2.guarded, checks_sortRule.guarded,
    checks_stringBoundary.guarded, checks_systemFile.guarded,
    checks_trueFalseSymbol.guarded, checks_whichGrepl.guarded, checks_sprintfRule.guarded, checks_allEqualFalse.guarded, checks_anyDuplicated.guarded,
    checks_comparisonNegation.guarded, checks_lengthTest.guarded,
    checks_outerNegation.guarded, checks_redundantIfelse.guarded, fun _ _ _ hg => absurd rfl hg.1, checks_coalesce.guarded, checks_expectNot.guarded, checks_repeatRule.guarded,
    checks_unnecessaryNesting.guarded⟩


/-- A fix that is not skipped, of guarded code, does not replace code with a comment inside: such fixes are only reported. -/
theorem C64_commented_code_is_skipped (want : Op) (q) (hq : q ∈ fixRules want) (z ed) (h : q.2 z = some ed) (hg : Guarded q.1 ed) (hc : commentInside ed) :
    ed.skip = true := by
  cases hs : ed.skip with
  | true => rfl
  | false =>
    have := checks_rules want q hq z ed h hg hs
    rw [inside_comments] at hc
    rw [hc] at this
    cases this

/-- The fix is a fix of the program the rule looked at. -/
def PlaceRule (r : Zip → Option Edit) : Prop := ∀ z ed, r z = some ed → ed.z.prog = z.prog

theorem place_fixAt {z c ed} (h : fixAt z c = ed) : ed.z.prog = z.prog := by subst h; rfl

theorem place_up {z q : Zip} (h : z.up = some q) : q.prog = z.prog := by
  obtain ⟨fs, e⟩ := z
  unfold Zip.up at h
  cases fs with
  | nil => cases h
  | cons f fs => cases h; rfl

theorem place_nested {z outer inner c t} (h : nested z outer inner = some (c, t)) : t.prog = z.prog := by
  simp only [nested, Option.bind_eq_bind, Option.bind_eq_some_iff, Option.orElse_eq_orElse, Prod.exists] at h
  obtain ⟨f, args, h1, _, _, h⟩ := h
  rcases orElse_some h with h | h
  · simp only [Option.bind_eq_some_iff, Prod.exists, Option.some.injEq, Prod.mk.injEq] at h
    obtain ⟨a, ha, v, hv, f2, args2, h2, _, _, rfl, rfl⟩ := h
    rfl
  · simp only [Option.bind_eq_some_iff, Prod.exists] at h
    obtain ⟨q, hq', l, o, r, hb, _, ho, h⟩ := h
    rcases orElse_some h with h | h
    · simp only [Option.bind_eq_some_iff, Prod.exists, Option.some.injEq, Prod.mk.injEq] at h
      obtain ⟨f2, args2, h2, _, _, rfl, rfl⟩ := h
      exact place_up hq'
    · simp only [Option.bind_eq_some_iff, Prod.exists, Option.some.injEq, Prod.mk.injEq] at h
      obtain ⟨c', o2, r2, h3, _, ho2, f2, args2, _, _, _, _, _, rfl, rfl⟩ := h
      exact place_up hq'

/-- Take a rule apart down to the fix it proposes. -/
macro "places" n:ident : tactic => `(tactic| (intro z ed h; unrule $n:ident h; repeat (first | exact place_fixAt h | obtain ⟨_, h⟩ := h)))

/-- The same, for rules on nested calls. -/
macro "nests" n:ident : tactic => `(tactic| (intro z ed h; unrule $n:ident h; obtain ⟨c, t, h, he⟩ := h; exact (place_fixAt he).trans (place_nested h)))

theorem place_equalsSpecial (special name both) : PlaceRule (equalsSpecial special name both) := by places equalsSpecial

theorem place_expectNull : PlaceRule expectNull := by
  intro z ed h
  unrule expectNull h
  obtain ⟨f, args, h1, h⟩ := h
  split at h
  · simp only [Option.bind_eq_some_iff, Option.some.injEq] at h
    obtain ⟨obj, ho, exp, he, other, hc, h⟩ := h
    exact place_fixAt h
  · simp only [Option.bind_eq_some_iff, Option.some.injEq, Prod.exists] at h
    obtain ⟨_, _, obj, ho, g, iargs, h2, _, _, x, hx, h⟩ := h
    exact place_fixAt h

theorem place_expectType : PlaceRule expectType := by
  intro z ed h
  unrule expectType h
  obtain ⟨f, args, h1, h⟩ := h
  split at h
  · simp only [Option.bind_eq_some_iff, Option.some.injEq, Prod.exists] at h
    obtain ⟨_, _, obj, ho, exp, he, c, other, hc, g, iargs, h2, x, hx, h⟩ := h
    exact place_fixAt h
  · simp only [Option.bind_eq_some_iff, Option.some.injEq, Prod.exists] at h
    obtain ⟨_, _, _, _, obj, ho, g, iargs, h2, ty, _, x, hx, h⟩ := h
    exact place_fixAt h

theorem place_redundantIfelse : PlaceRule redundantIfelse := by
  intro z ed h
  unrule redundantIfelse h
  obtain ⟨f, args, h1, n1, n2, n3, _, _, _, c, hcv, t, _, e, _, h⟩ := h
  split at h
  · exact place_fixAt (Option.some.inj h)
  · split at h
    · exact place_fixAt (Option.some.inj h)
    · cases h

theorem place_allEqualTrue : PlaceRule allEqualTrue := by
  intro z ed h
  obtain ⟨fs, e⟩ := z
  unrule allEqualTrue h
  obtain ⟨_, _, f, args, _, _, _, h⟩ := h
  split at h
  · cases h; rfl
  · cases h; rfl
  · cases h; rfl
  · simp only [Option.bind_eq_some_iff, Option.some.injEq] at h
    obtain ⟨_, _, rfl⟩ := h
    rfl
  · cases h

theorem place_sprintfRule : PlaceRule sprintfRule := by
  intro z ed h
  obtain ⟨f, args, a, g, s, t, n, h1, _, _, _, _, he⟩ := sprintfRule_some h
  exact place_fixAt he.symm

theorem place_numericLeadingZero : PlaceRule numericLeadingZero := by
  intro z ed h
  unfold numericLeadingZero at h
  split at h
  · cases h; rfl
  · cases h; rfl
  · cases h

theorem place_trueFalseSymbol : PlaceRule trueFalseSymbol := by
  intro z ed h
  unrule trueFalseSymbol h
  obtain ⟨k, new, hc, _, _, rfl⟩ := h
  rfl

theorem place_assignment (want) : PlaceRule (assignment want) := by
  intro z ed h
  unrule assignment h
  obtain ⟨l, o, r, h1, h⟩ := h
  revert h
  generalize (if want = Op.assign then Op.eq else Op.assign) = other
  intro h
  split at h
  · cases h; rfl
  · split at h
    · cases h; rfl
    · cases h

theorem place_repeatRule : PlaceRule repeatRule := by
  intro z ed h
  unfold repeatRule at h
  split at h
  · split at h
    · exact place_fixAt (Option.some.inj h)
    · cases h
  · cases h

theorem place_coalesce : PlaceRule coalesce := by
  intro z ed h
  unfold coalesce at h
  split at h
  · simp only [Option.bind_eq_bind, Option.bind_eq_some_iff, Prod.exists, Option.some.injEq] at h
    obtain ⟨call, same, other, hpick, f, args, hcall, _, _, _, _, x, hx, _, _, rfl⟩ := h
    rfl
  · cases h

theorem place_unnecessaryNesting : PlaceRule unnecessaryNesting := by
  intro z ed h
  unfold unnecessaryNesting at h
  split at h
  · exact place_fixAt (Option.some.inj h)
  · cases h

theorem place_rules (want : Op) : ∀ q ∈ fixRules want, PlaceRule q.2 := by
  simp only [fixRules, keepingRules, roomRules, List.cons_append, List.nil_append, List.forall_mem_cons, List.not_mem_nil, false_imp_iff, implies_true, and_true]
  exact ⟨place_allEqualTrue, by nests anyIsNa, by places anyIsNa2, by places classIdentical, by places classEquals, place_equalsSpecial _ _ _, place_equalsSpecial _ _ _, place_equalsSpecial _ _ _,
    by places expectLength, by places expectMatch, by places expectNamed, by places expectMatch, place_expectNull, by places expectS3Class, by places expectTrueFalse,
    place_expectType, by places fixedRegex, by places grepv, by places isNumeric, by nests lengthLevels, by places lengths, by places list2df, by places matrixApply,
    place_numericLeadingZero, by places redundantEquals, by places sampleInt, by places seq, by places seq2, by places sortRule, by places stringBoundary, by places systemFile,
    place_trueFalseSymbol, by nests whichGrepl, place_sprintfRule, by nests allEqualFalse, by nests anyDuplicated, by places comparisonNegation, by places lengthTest,
    by places outerNegation, place_redundantIfelse, place_assignment want, place_coalesce, by places expectNot, place_repeatRule, place_unnecessaryNesting⟩

/-- A fix that is carried out keeps the comments, if the code is guarded. -/
theorem C64_fixes_keep_comments (want : Op) (q) (hq : q ∈ fixRules want) (ts p z ed) (hp : Parses ts p) (hz : z.prog = p) (h : q.2 z = some ed)
    (hs : ed.skip = false) (hg : Guarded q.1 ed) : KeepsComments ed :=
  C64_comments_around want q hq ts p z ed hp hz h hs fun hc => by
    have := C64_commented_code_is_skipped want q hq z ed h hg hc
    rw [hs] at this; cases this

theorem patched_comments {p : Node} {i ts cs out} (h : Patched i ts cs out) : ∀ eds : List Edit, cs = eds.map cutOf → ts = (toks p).drop i →
    (∀ ed ∈ eds, ed.z.prog = p ∧ KeepsComments ed) → comments out = comments ts := by
  induction h with
  | done => intros; rfl
  | @cut i keep old rest c cs out h1 h2 _ ih =>
    intro eds he ht hk
    cases eds with
    | nil => cases he
    | cons ed eds =>
      simp only [List.map_cons, List.cons.injEq] at he
      obtain ⟨rfl, rfl⟩ := he
      obtain ⟨hp, hkc, _⟩ := hk ed (by simp)
      have hdrop : ∀ n, n = i + keep.length → (toks p).drop n = old ++ rest := by
        rintro n rfl
        rw [← List.drop_drop, ← ht, List.append_assoc, List.drop_left]
      have e1 := hdrop _ h1.symm
      have hL : toks p = beforeToks ed.z.fs ++ (toks ed.z.e ++ afterToks ed.z.fs) := by rw [← hp, Zip.prog, toks_plug, List.append_assoc]
      have hlen : old.length = (toks ed.z.e).length := by simp only [cutOf] at h2; omega
      have hold : old = toks ed.z.e ∧ rest = afterToks ed.z.fs := by
        have : toks ed.z.e ++ afterToks ed.z.fs = old ++ rest := by
          rw [← e1]; simp only [cutOf]; rw [hL, List.drop_left]
        obtain ⟨a, b⟩ := List.append_inj this hlen.symm
        exact ⟨a.symm, b.symm⟩
      have hr : rest = (toks p).drop (cutOf ed).stop := by
        rw [← h2, ← List.drop_drop, e1, List.drop_left]
      have := ih eds rfl hr fun e he => hk e (by simp [he])
      simp only [comments_append, this, hold.1]
      rw [show (cutOf ed).new = joinHead (headGap (toks ed.z.e)) ed.content from rfl, hkc]

/-- Several fixes at once keep the comments. -/
theorem C64_pass (want : Op) (ts out : List Tok) (h : CommentPass want ts out) : comments out = comments ts := by
  obtain ⟨p, eds, hp, he, hpa⟩ := h
  refine patched_comments (p := p) hpa eds rfl hp.2.2.symm fun ed hed => ?_
  obtain ⟨hs, q, hq, z, hz, h, hg⟩ := he ed hed
  have hzp : ed.z.prog = p := (place_rules want q hq z ed h).trans hz
  rcases hg with hg | hg
  · exact ⟨hzp, C64_fixes_keep_comments want q hq ts p z ed hp hz h hs hg⟩
  · exact ⟨hzp, C64_comments_around want q hq ts p z ed hp hz h hs hg⟩

/-- Any number of passes keeps the comments. -/
theorem C64_passes (want : Op) (ts out : List Tok) (h : CommentPasses want ts out) : comments out = comments ts := by
  induction h with
  | none => rfl
  | more _ h2 ih => rw [C64_pass want _ _ h2, ih]

end Jarl

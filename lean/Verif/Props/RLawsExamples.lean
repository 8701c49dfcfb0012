import Verif.Props.RLawsMain
/-!
# C52: every rule meets its condition on some program, and puts in what is shown
-/
namespace Jarl
open Spec

/-- `WF` can be computed. -/
def wf : Mode → Node → Bool
  | _, .atom _ _ _ => true
  | _, .paren _ e _ => isExpr e && wf .free e
  | _, .braces _ ss _ => isStmts ss && wf .brace ss
  | md, .un _ o e => isExpr e && wf md e && (match unLevel o with | some k => decide (2 * k ≤ lp e) | none => false)
  | md, .bin l g o r => isExpr l && isExpr r && wf md l && wf md r && Infix o && (decide (md = .free) || !g.nl) && decide (lbp o < rp l) && decide (rbp o ≤ lp r)
  | md, .ext l g _ _ _ _ => isExpr l && wf md l && (decide (md = .free) || !g.nl) && decide (postfixBp < rp l)
  | md, .call f g _ args _ => isExpr f && wf md f && (decide (md = .free) || !g.nl) && decide (postfixBp < rp f) && isArgs args && wf .free args && decide (argBp ≤ lp args)
  | md, .func _ _ _ params _ b => isArgs params && wf .free params && decide (argBp ≤ lp params) && isExpr b && wf md b && decide (bodyBp ≤ lp b)
  | md, .ifE _ _ c _ t => isExpr c && wf .free c && decide (argBp ≤ lp c) && isExpr t && wf md t && decide (bodyBp ≤ lp t)
  | md, .ifElse _ _ c _ t g4 e => isExpr c && wf .free c && decide (argBp ≤ lp c) && isExpr t && wf md t && decide (bodyBp ≤ lp t) &&
      !openIf t && (decide (md ≠ .top) || !g4.nl) && isExpr e && wf md e && decide (bodyBp ≤ lp e)
  | md, .whileE _ _ c _ b => isExpr c && wf .free c && decide (argBp ≤ lp c) && isExpr b && wf md b && decide (bodyBp ≤ lp b)
  | md, .forE _ _ _ _ _ s _ b => isExpr s && wf .free s && decide (argBp ≤ lp s) && isExpr b && wf md b && decide (bodyBp ≤ lp b)
  | md, .repE _ b => isExpr b && wf md b && decide (bodyBp ≤ lp b)
  | _, .hole => true
  | _, .named _ k _ _ e => nameable k && (decide (e = .hole) || (isExpr e && wf .free e && decide (argBp ≤ lp e)))
  | _, .comma a _ rest => isArg a && wf .free a && decide (argBp ≤ lp a) && isArgs rest && wf .free rest && decide (argBp ≤ lp rest)
  | _, .snil => true
  | md, .scons e semis rest => isExpr e && wf md e && isStmts rest && wf md rest &&
      (decide (rest = .snil) || decide (semis ≠ []) || (headGap (toks rest)).nl)

theorem wf_WF : ∀ {n md}, wf md n = true → WF md n
  | .atom .., _, _ => trivial
  | .paren _ e _, _, h => by simp only [wf, Bool.and_eq_true] at h; exact ⟨h.1, wf_WF h.2⟩
  | .braces _ e _, _, h => by simp only [wf, Bool.and_eq_true] at h; exact ⟨h.1, wf_WF h.2⟩
  | .un _ o e, _, h => by
      simp only [wf, Bool.and_eq_true] at h
      refine ⟨h.1.1, wf_WF h.1.2, ?_⟩
      have := h.2
      split at this
      next k hk => exact ⟨k, hk, of_decide_eq_true this⟩
      next => cases this
  | .bin l g o r, md, h => by
      simp only [wf, Bool.and_eq_true, Bool.or_eq_true, decide_eq_true_eq, Bool.not_eq_true'] at h
      obtain ⟨⟨⟨⟨⟨⟨⟨a, b⟩, c⟩, d⟩, e⟩, f⟩, i⟩, j⟩ := h
      exact ⟨a, b, wf_WF c, wf_WF d, e, f, i, j⟩
  | .ext l g _ _ _ _, md, h => by
      simp only [wf, Bool.and_eq_true, Bool.or_eq_true, decide_eq_true_eq, Bool.not_eq_true'] at h
      obtain ⟨⟨⟨a, b⟩, c⟩, d⟩ := h
      exact ⟨a, wf_WF b, c, d⟩
  | .call f g _ args _, md, h => by
      simp only [wf, Bool.and_eq_true, Bool.or_eq_true, decide_eq_true_eq, Bool.not_eq_true'] at h
      obtain ⟨⟨⟨⟨⟨⟨a, b⟩, c⟩, d⟩, e⟩, f⟩, i⟩ := h
      exact ⟨a, wf_WF b, c, d, e, wf_WF f, i⟩
  | .func _ _ _ params _ b, md, h => by
      simp only [wf, Bool.and_eq_true, decide_eq_true_eq] at h
      obtain ⟨⟨⟨⟨⟨a, b⟩, c⟩, d⟩, e⟩, f⟩ := h
      exact ⟨a, wf_WF b, c, d, wf_WF e, f⟩
  | .ifE _ _ c _ t, md, h => by
      simp only [wf, Bool.and_eq_true, decide_eq_true_eq] at h
      obtain ⟨⟨⟨⟨⟨a, b⟩, c⟩, d⟩, e⟩, f⟩ := h
      exact ⟨a, wf_WF b, c, d, wf_WF e, f⟩
  | .ifElse _ _ c _ t g4 e, md, h => by
      simp only [wf, Bool.and_eq_true, Bool.or_eq_true, decide_eq_true_eq, Bool.not_eq_true'] at h
      obtain ⟨⟨⟨⟨⟨⟨⟨⟨⟨⟨a, b⟩, c⟩, d⟩, e⟩, f⟩, i⟩, j⟩, k⟩, l⟩, m⟩ := h
      exact ⟨a, wf_WF b, c, d, wf_WF e, f, i, j, k, wf_WF l, m⟩
  | .whileE _ _ c _ b, md, h => by
      simp only [wf, Bool.and_eq_true, decide_eq_true_eq] at h
      obtain ⟨⟨⟨⟨⟨a, b⟩, c⟩, d⟩, e⟩, f⟩ := h
      exact ⟨a, wf_WF b, c, d, wf_WF e, f⟩
  | .forE _ _ _ _ _ s _ b, md, h => by
      simp only [wf, Bool.and_eq_true, decide_eq_true_eq] at h
      obtain ⟨⟨⟨⟨⟨a, b⟩, c⟩, d⟩, e⟩, f⟩ := h
      exact ⟨a, wf_WF b, c, d, wf_WF e, f⟩
  | .repE _ b, md, h => by
      simp only [wf, Bool.and_eq_true, decide_eq_true_eq] at h
      exact ⟨h.1.1, wf_WF h.1.2, h.2⟩
  | .hole, _, _ => trivial
  | .named _ k _ _ e, _, h => by
      simp only [wf, Bool.and_eq_true, Bool.or_eq_true, decide_eq_true_eq] at h
      exact ⟨h.1, h.2.imp id fun h => ⟨h.1.1, wf_WF h.1.2, h.2⟩⟩
  | .comma a _ rest, _, h => by
      simp only [wf, Bool.and_eq_true, decide_eq_true_eq] at h
      obtain ⟨⟨⟨⟨⟨a, b⟩, c⟩, d⟩, e⟩, f⟩ := h
      exact ⟨a, wf_WF b, c, d, wf_WF e, f⟩
  | .snil, _, _ => trivial
  | .scons e semis rest, md, h => by
      simp only [wf, Bool.and_eq_true, Bool.or_eq_true, decide_eq_true_eq] at h
      obtain ⟨⟨⟨⟨a, b⟩, c⟩, d⟩, e⟩ := h
      refine ⟨a, wf_WF b, c, wf_WF d, fun h1 h2 => ?_⟩
      rcases e with (e | e) | e
      · exact absurd e h1
      · exact absurd h2 e
      · exact e

theorem parses_of {ts p} (h : (isStmts p && wf .top p && decide (toks p = ts)) = true) : Parses ts p := by
  simp only [Bool.and_eq_true, decide_eq_true_eq] at h
  exact ⟨h.1.1, wf_WF h.1.2, h.2⟩

/-- `Placed` can be computed. -/
def placedB (ed : Edit) (e' : Node) : Bool :=
  isExpr e' && decide (toks e' = joinHead (headGap (toks ed.z.e)) ed.content) && isStmts (plug ed.z.fs e') && wf .top (plug ed.z.fs e') &&
    decide (toks (plug ed.z.fs e') = edited ed)

theorem placed_of {ed e'} (h : placedB ed e' = true) : Placed ed e' := by
  simp only [placedB, Bool.and_eq_true, decide_eq_true_eq] at h
  obtain ⟨⟨⟨⟨a, b⟩, c⟩, d⟩, e⟩ := h
  exact ⟨a, b, c, wf_WF d, e⟩

/-- With this code around, `old` becomes `new` by this rule, and the condition holds. -/
def TurnsIn (fs : List Frame) (r : Zip → Option Edit) (cond : Zip → Prop) (old new : Node) : Prop :=
  ∃ z ed, z.prog = plug fs old ∧ Parses (toks z.prog) z.prog ∧ r z = some ed ∧ ed.z = ⟨fs, old⟩ ∧ innerComments (toks ed.z.e) = false ∧ piped ed.z.fs = false ∧ cond ed.z ∧
    Placed ed new

/-- `y <- old` becomes `y <- new`. -/
abbrev Turns : (Zip → Option Edit) → (Zip → Prop) → Node → Node → Prop := TurnsIn [.binR (nm (cs! "y")) .none .assign, stmt1]

theorem turns_of' {fs} {r : Zip → Option Edit} {cond old new} (z : Zip)
    (h : (match r z with
      | some ed => isStmts z.prog && wf .top z.prog && !innerComments (toks ed.z.e) && !piped ed.z.fs && placedB ed new && decide (ed.z = ⟨fs, old⟩) &&
          decide (z.prog = plug fs old)
      | none => false) = true) (hc : cond ⟨fs, old⟩) : TurnsIn fs r cond old new := by
  generalize hr : r z = o at h
  match o with
  | none => cases h
  | some ed =>
    simp only [Bool.and_eq_true, decide_eq_true_eq, Bool.not_eq_true'] at h
    obtain ⟨⟨⟨⟨⟨⟨a, b⟩, c⟩, d⟩, e⟩, f⟩, g⟩ := h
    exact ⟨z, ed, g, ⟨a, wf_WF b, rfl⟩, hr, f, c, d, f ▸ hc, placed_of e⟩

theorem turns_of {fs} {r : Zip → Option Edit} {cond old new}
    (h : (match r ⟨fs, old⟩ with
      | some ed => isStmts (plug fs old) && wf .top (plug fs old) && !innerComments (toks ed.z.e) && !piped ed.z.fs && placedB ed new && decide (ed.z = ⟨fs, old⟩) && true
      | none => false) = true) (hc : cond ⟨fs, old⟩) : TurnsIn fs r cond old new :=
  turns_of' ⟨fs, old⟩ (by simpa [Zip.prog] using h) hc

/-- Two arguments. -/
def a2 (a b : Node) : Node := .comma a .none b

/-- Three arguments. -/
def a3 (a b c : Node) : Node := .comma a .none (.comma b .none c)

/-- `name = value`. -/
def arg (n : Str) (v : Node) : Node := .named .none .id n .none v

/-- A string. -/
def str (s : Str) : Node := .atom .none .str s

/-- `TRUE`. -/
def yes : Node := .atom .none .true (cs! "TRUE")

/-- `FALSE`. -/
def no : Node := .atom .none .false (cs! "FALSE")

/-- `NULL`. -/
def null : Node := .atom .none .null (cs! "NULL")

/-- `x` -/
def x' : Node := nm (cs! "x")

/-- An operator. -/
def op (l : Node) (o : Op) (r : Node) : Node := .bin l .none o r

/-- `!e` -/
def neg (e : Node) : Node := .un .none .bang e

/-- `{ e }` -/
def br (e : Node) : Node := .braces .none (.scons e [] .snil) .none

/-- The condition of an `if`. -/
def ifCond : List Frame := [.ifC .none .none .none x', stmt1]

/-- Check a step. -/
macro "turns" : tactic => `(tactic| refine turns_of (by decide +kernel) ?_)

/-- Check a condition. -/
macro "cond" : tactic => `(tactic| (simp [onlyNested, onlyPlain, oneArg, noNames, argsOf, onlyNegation, callsOne, onlyTwo, sidesOne, onlyFun, firstPlain, valueTrue, oneUnnamed, noOptions,
  atMostTwo, twoArgs, notNullIn, sortOptions, notEq, innerNames, innerPlain, plainSides, statementLines, tightSides,
  cl, a2, a3, arg, str, yes, no, null, x', op, neg, br, nm, num, items, argList, argName, argValue, unnamedArgs, namedArgs, fnName, isAtom]))

example : Turns anyIsNa onlyNested (cl (cs! "any") (cl (cs! "is.na") x')) (cl (cs! "anyNA") x') := by turns; cond
example : Turns anyIsNa onlyNested (op (cl (cs! "is.na") x') .pipe (cl (cs! "any") .hole)) (cl (cs! "anyNA") x') := by
  refine turns_of' ⟨[.binR (cl (cs! "is.na") x') .none .pipe, .binR (nm (cs! "y")) .none .assign, stmt1], cl (cs! "any") .hole⟩ (by decide +kernel) ?_; cond
example : Turns anyIsNa onlyNested (op (op x' .pipe (cl (cs! "is.na") .hole)) .pipe (cl (cs! "any") .hole)) (cl (cs! "anyNA") x') := by
  refine turns_of' ⟨[.binR (op x' .pipe (cl (cs! "is.na") .hole)) .none .pipe, .binR (nm (cs! "y")) .none .assign, stmt1], cl (cs! "any") .hole⟩ (by decide +kernel) ?_; cond
example : Turns anyIsNa2 always (op (.atom .none .na (cs! "NA")) (.special (cs! "in")) x') (cl (cs! "anyNA") x') := by turns; trivial
example : Turns anyDuplicated onlyNested (cl (cs! "any") (cl (cs! "duplicated") x')) (op (cl (cs! "anyDuplicated") x') .gt (num (cs! "0"))) := by turns; cond
example : Turns whichGrepl onlyNested (cl (cs! "which") (cl (cs! "grepl") (a2 (str (cs! "\"a\"")) x'))) (cl (cs! "grep") (a2 (str (cs! "\"a\"")) x')) := by turns; cond
example : Turns lengthLevels onlyNested (cl (cs! "length") (cl (cs! "levels") x')) (cl (cs! "nlevels") x') := by turns; cond
example : Turns lengthTest onlyPlain (cl (cs! "length") (op x' .eq2 (num (cs! "1")))) (op (cl (cs! "length") x') .eq2 (num (cs! "1"))) := by turns; cond
example : Turns outerNegation onlyNegation (cl (cs! "any") (neg x')) (neg (cl (cs! "all") x')) := by turns; cond
example : Turns redundantIfelse always (cl (cs! "ifelse") (a3 (arg (cs! "no") yes) x' no)) (neg (.paren .none x' .none)) := by turns; trivial
example : Turns allEqualFalse onlyNested (cl (cs! "isFALSE") (cl (cs! "all.equal") (a2 x' x'))) (neg (cl (cs! "isTRUE") (cl (cs! "all.equal") (a2 x' x')))) := by turns; cond
example : TurnsIn ifCond allEqualTrue always (neg (cl (cs! "all.equal") (a2 x' x'))) (neg (cl (cs! "isTRUE") (cl (cs! "all.equal") (a2 x' x')))) := by
  refine turns_of' ⟨.un .none .bang :: ifCond, cl (cs! "all.equal") (a2 x' x')⟩ (by decide +kernel) ?_; trivial
example : Turns classIdentical onlyTwo (cl (cs! "identical") (a2 (str (cs! "'a'")) (cl (cs! "class") x'))) (cl (cs! "inherits") (a2 x' (str (cs! "'a'")))) := by turns; cond
example : TurnsIn ifCond classEquals sidesOne (op (cl (cs! "class") x') .ne (str (cs! "'a'"))) (neg (cl (cs! "inherits") (a2 x' (str (cs! "'a'"))))) := by turns; intro l g o r h; cases h; cond
example : Turns lengths onlyFun (cl (cs! "sapply") (a2 (arg (cs! "FUN") (nm (cs! "length"))) x')) (cl (cs! "lengths") x') := by turns; intro f g args g2 h; cases h; cond
example : Turns lengths onlyFun (cl (cs! "vapply") (a3 x' (nm (cs! "length")) (num (cs! "1")))) (cl (cs! "lengths") x') := by turns; intro f g args g2 h; cases h; cond
example : Turns lengths onlyFun (cl (cs! "map_dbl") (a2 x' (nm (cs! "length")))) (cl (cs! "lengths") x') := by turns; intro f g args g2 h; cases h; cond
example : Turns sampleInt firstPlain (cl (cs! "sample") (a2 (op (num (cs! "1")) .colon (num (cs! "9"))) x')) (cl (cs! "sample.int") (a2 (num (cs! "9")) x')) := by turns; exact ⟨_, _, rfl, rfl, by decide, by cond⟩
example : Turns grepv valueTrue (cl (cs! "grep") (a3 (str (cs! "'a'")) x' (arg (cs! "value") yes))) (cl (cs! "grepv") (a2 (str (cs! "'a'")) x')) := by turns; cond
example : Turns systemFile oneUnnamed (cl (cs! "system.file") (a2 (cl (cs! "file.path") (a2 (str (cs! "'a'")) x')) (arg (cs! "package") x')))
    (cl (cs! "system.file") (a3 (str (cs! "'a'")) x' (arg (cs! "package") x'))) := by turns; cond
example : Turns list2df always (cl (cs! "do.call") (a2 (nm (cs! "cbind.data.frame")) x')) (cl (cs! "list2DF") x') := by turns; trivial
example : Turns matrixApply always (cl (cs! "apply") (.comma x' .none (a3 (arg (cs! "na.rm") yes) (num (cs! "1")) (nm (cs! "mean")))))
    (cl (cs! "rowMeans") (a2 x' (arg (cs! "na.rm") yes))) := by turns; trivial
example : Turns seq always (op (num (cs! "1")) .colon (cl (cs! "nrow") x')) (cl (cs! "seq_len") (cl (cs! "nrow") x')) := by turns; trivial
example : Turns seq2 always (cl (cs! "seq") (cl (cs! "length") x')) (cl (cs! "seq_along") x') := by turns; trivial
example : Turns fixedRegex noOptions (cl (cs! "gsub") (a3 (str (cs! "'-'")) (str (cs! "''")) x'))
    (cl (cs! "gsub") (.comma (str (cs! "'-'")) .none (a3 (str (cs! "''")) x' (arg (cs! "fixed") yes)))) := by turns; refine ⟨by cond, fun f g args g2 h => ?_⟩; cases h; decide
example : Turns expectNamed atMostTwo (cl (cs! "expect_equal") (a2 (cl (cs! "names") x') (str (cs! "'a'")))) (cl (cs! "expect_named") (a2 x' (str (cs! "'a'")))) := by turns; cond
example : Turns expectTrueFalse twoArgs (cl (cs! "expect_identical") (a2 no x')) (cl (cs! "expect_false") x') := by turns; cond
example : Turns expectNot notEq (cl (cs! "expect_true") (neg (.paren .none x' .none))) (cl (cs! "expect_false") x') := by turns; cond; rintro _ _ _ _ _ _ rfl _; decide
example : Turns expectNull expectArgs (cl (cs! "expect_equal") (a2 x' null)) (cl (cs! "expect_null") x') := by turns; exact ⟨fun f g args g2 h => by cases h; decide, by cond⟩
example : Turns expectNull expectArgs (cl (cs! "expect_true") (cl (cs! "is.null") x')) (cl (cs! "expect_null") x') := by turns; exact ⟨fun f g args g2 h => by cases h; decide, by cond⟩
example : Turns expectLength innerPlain (cl (cs! "expect_equal") (a2 (cl (cs! "length") x') (num (cs! "1")))) (cl (cs! "expect_length") (a2 x' (num (cs! "1")))) := by turns; cond
example : Turns expectType innerPlain (cl (cs! "expect_true") (cl (cs! "is.raw") x')) (cl (cs! "expect_type") (a2 x' (str (cs! "\"raw\"")))) := by turns; cond
example : Turns expectS3Class innerPlain (cl (cs! "expect_equal") (a2 (cl (cs! "class") x') (str (cs! "'lm'")))) (cl (cs! "expect_s3_class") (a2 x' (str (cs! "'lm'")))) := by
  turns; cond
example : Turns (expectMatch · (cs! "expect_true") (cs! "expect_match")) innerNames
    (cl (cs! "expect_true") (cl (cs! "grepl") (a3 (arg (cs! "fixed") yes) (arg (cs! "x") x') (str (cs! "'a'")))))
    (cl (cs! "expect_match") (a3 x' (str (cs! "'a'")) (arg (cs! "fixed") yes))) := by turns; cond
example : Turns (expectMatch · (cs! "expect_false") (cs! "expect_no_match")) innerNames
    (cl (cs! "expect_false") (cl (cs! "grepl") (a2 (str (cs! "'a'")) x'))) (cl (cs! "expect_no_match") (a2 x' (str (cs! "'a'")))) := by turns; cond
example : Turns equalsNa always (op x' .ne (.atom .none .na (cs! "NA"))) (neg (cl (cs! "is.na") x')) := by turns; trivial
example : Turns equalsNan always (op x' .eq2 (.atom .none .nan (cs! "NaN"))) (cl (cs! "is.nan") x') := by turns; trivial
example : Turns equalsNull notNullIn (op x' .eq2 null) (cl (cs! "is.null") x') := by turns; intro l g o r h; cases h; decide
example : Turns isNumeric always (op (cl (cs! "is.numeric") x') .or2 (cl (cs! "is.integer") x')) (cl (cs! "is.numeric") x') := by turns; trivial
example : Turns redundantEquals always (op x' .eq2 no) (neg x') := by turns; trivial
example : Turns comparisonNegation always (neg (.paren .none (op x' .lt x') .none)) (op x' .ge x') := by turns; trivial
example : Turns sortRule sortOptions (.call x' .none .brk (cl (cs! "order") (a2 (arg (cs! "decreasing") yes) x')) .none)
    (cl (cs! "sort") (a2 x' (arg (cs! "decreasing") yes))) := by turns; intro f g b g2 g' oargs g2' h; cases h; decide
example : Turns stringBoundary boundaryPlaces (op (cl (cs! "substr") (a3 x' (num (cs! "1")) (num (cs! "2")))) .eq2 (str (cs! "\"ab\"")))
    (cl (cs! "startsWith") (a2 x' (str (cs! "\"ab\"")))) := by
  turns
  intro l g o r h c s hcs ⟨f, g1, args, g2, hc⟩
  cases h
  rcases hcs with ⟨rfl, rfl⟩ | ⟨rfl, rfl⟩
  · exact ⟨x', num (cs! "1"), num (cs! "2"), rfl, by cond, Or.inl ⟨⟨(.double, cs! "1"), by decide, rfl⟩, cs! "ab", rfl, by decide, _, rfl, nofun⟩⟩
  · cases hc
example : TurnsIn [stmt1] (assignment .assign) plainSides (op x' .eq (num (cs! "1"))) (op x' .assign (num (cs! "1"))) := by turns; intro l g o r h; cases h; decide
example : TurnsIn [stmt1] (assignment .assign) plainSides (op (num (cs! "1")) .rassign x') (op x' .assign (num (cs! "1"))) := by turns; intro l g o r h; cases h; decide
example : TurnsIn [stmt1] (assignment .eq) plainSides (op x' .assign (num (cs! "1"))) (op x' .eq (num (cs! "1"))) := by turns; intro l g o r h; cases h; decide
example : Turns numericLeadingZero always (num (cs! ".5")) (num (cs! "0.5")) := by turns; trivial
example : Turns trueFalseSymbol always (nm (cs! "F")) no := by turns; trivial
example : Turns repeatRule statementLines (.whileE .none .none yes .none x') (.repE .none (br x')) := by turns; exact Or.inl (by decide)
example : Turns coalesce tightSides (.ifElse .none .none (cl (cs! "is.null") x') .none (nm (cs! "z")) .none (br x')) (op x' (.special (cs! "||")) (nm (cs! "z"))) := by
  turns; intro g g2 c g3 t g4 e h; cases h; refine ⟨fun x y h => ?_, by cond, by cond⟩; cases h; decide
example : Turns unnecessaryNesting always (.ifE .none .none x' .none (br (.ifE .none .none (op x' .gt x') .none x')))
    (.ifE .none .none (op x' .and2 (.paren .none (op x' .gt x') .none)) .none x') := by turns; trivial

example : Turns sprintfRule plainFormat (cl (cs! "sprintf") (str (cs! "\"100%% of it\""))) (str (cs! "\"100% of it\"")) := by
  turns
  refine ⟨rfl, fun a ha g s hv => ?_⟩
  have : a = str (cs! "\"100%% of it\"") := by simpa [argsOf, cl, items, argList, str] using ha
  subst this
  simp only [str, argValue, Option.some.injEq, Node.atom.injEq, true_and] at hv
  obtain ⟨_, rfl⟩ := hv
  constructor
  · simp [NoBlank]
  · intro a c b h
    have : '\\' ∈ cs! "\"100%% of it\"" := by rw [h]; simp
    exact absurd this (by decide)

end Jarl

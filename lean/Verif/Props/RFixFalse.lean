import Verif.Props.RFixRoom
/-!
# C51: fixes that do not keep the structure

Programs on which jarl's fix (which it counts as safe) makes R read the code around it in another way.
-/
namespace Jarl
open Spec

/-- A name. -/
def nm (s : Str) : Node := .atom .none .id s

/-- A number. -/
def num (s : Str) : Node := .atom .none .double s

/-- A call. -/
def cl (f : Str) (args : Node) : Node := .call (nm f) .none .par args .none

/-- A program of one statement. -/
def prog1 (e : Node) : Node := .scons e [] .snil

/-- The frame of a program of one statement. -/
def stmt1 : Frame := .sconsE [] .snil

/-- A line break. -/
def nl : Gap := .line false false

/-- Check that R reads the tokens in this way. -/
macro "reads" : tactic => `(tactic| (refine ⟨rfl, ?_, rfl⟩; simp [Zip.prog, plug, Frame.fill, WF, isExpr, isStmts, isArgs, isArg, joins, joinsElse, nl, Gap.nl, lp, rp, cl, nm, num,
  Infix, lbp, rbp, follow, nonAssoc, level, unLevel, rightAssoc, topBp, postfixBp, argBp, bodyBp, prog1, stmt1, openIf, nameable, headGap, toks]))

theorem breaks {r : Zip → Option Edit} {z ed q} (hp : Parses (toks z.prog) z.prog) (h : r z = some ed) (hc : innerComments (toks ed.z.e) = false)
    (hq : Parses (edited ed) q) (hne : ∀ e', isExpr e' = true → plug ed.z.fs e' ≠ q) : ¬ SafeRule r := fun hs => by
  obtain ⟨_, _, e', he', _, hk⟩ := hs _ _ z ed hp rfl h hc
  exact hne e' he' (C50_grammar_unambiguous hk hq)

/-- `any(duplicated(x)) + 1` becomes `anyDuplicated(x) > 0 + 1`. -/
theorem C51_false_any_duplicated : ¬ SafeRule anyDuplicated :=
  breaks (z := ⟨[.binL .none .plus (num (cs! "1")), stmt1], cl (cs! "any") (cl (cs! "duplicated") (nm (cs! "x")))⟩)
    (q := prog1 (.bin (cl (cs! "anyDuplicated") (nm (cs! "x"))) .none .gt (.bin (num (cs! "0")) .none .plus (num (cs! "1")))))
    (by reads) rfl rfl (by reads) (by intro e' _ h; simp [plug, fixAt, Frame.fill, prog1, stmt1] at h)

/-- `2 * length(x == y)` becomes `2 * length(x) == y`. -/
theorem C51_false_length_test : ¬ SafeRule lengthTest :=
  breaks (z := ⟨[.binR (num (cs! "2")) .none .mul, stmt1], cl (cs! "length") (.bin (nm (cs! "x")) .none .eq2 (nm (cs! "y")))⟩)
    (q := prog1 (.bin (.bin (num (cs! "2")) .none .mul (cl (cs! "length") (nm (cs! "x")))) .none .eq2 (nm (cs! "y"))))
    (by reads) rfl rfl (by reads) (by intro e' _ h; simp [plug, fixAt, Frame.fill, prog1, stmt1] at h)

/-- `a + !(x == y)` becomes `a + x != y`. -/
theorem C51_false_comparison_negation : ¬ SafeRule comparisonNegation :=
  breaks (z := ⟨[.binR (nm (cs! "a")) .none .plus, stmt1], .un .none .bang (.paren .none (.bin (nm (cs! "x")) .none .eq2 (nm (cs! "y"))) .none)⟩)
    (q := prog1 (.bin (.bin (nm (cs! "a")) .none .plus (nm (cs! "x"))) .none .ne (nm (cs! "y"))))
    (by reads) rfl rfl (by reads) (by intro e' _ h; simp [plug, fixAt, Frame.fill, prog1, stmt1] at h)

/-- At top level, a line break in `!(x ⏎ == y)` ends the expression once the parentheses are gone: there the fix makes something R cannot
read, here (with `-`) two statements. `!(x == y ⏎ - z)` becomes `x != y ⏎ - z`. -/
theorem C51_false_comparison_negation_lines : ¬ SafeRule comparisonNegation :=
  breaks (z := ⟨[stmt1], .un .none .bang (.paren .none (.bin (nm (cs! "x")) .none .eq2 (.bin (nm (cs! "y")) nl .minus (nm (cs! "z")))) .none)⟩)
    (q := .scons (.bin (nm (cs! "x")) .none .ne (nm (cs! "y"))) [] (.scons (.un nl .minus (nm (cs! "z"))) [] .snil))
    (by reads) rfl rfl (by reads) (by intro e' _ h; simp [plug, fixAt, Frame.fill, stmt1] at h)

/-- `ifelse(a | b, TRUE, FALSE) & c` becomes `a | b & c`. -/
theorem C51_false_redundant_ifelse : ¬ SafeRule redundantIfelse :=
  breaks (z := ⟨[.binL .none .and (nm (cs! "c")), stmt1], cl (cs! "ifelse") (.comma (.bin (nm (cs! "a")) .none .or (nm (cs! "b"))) .none
      (.comma (.atom .none .true (cs! "TRUE")) .none (.atom .none .false (cs! "FALSE"))))⟩)
    (q := prog1 (.bin (nm (cs! "a")) .none .or (.bin (nm (cs! "b")) .none .and (nm (cs! "c")))))
    (by reads) rfl rfl (by reads) (by intro e' _ h; simp [plug, fixAt, Frame.fill, prog1, stmt1] at h)

/-- `any(!x) == y` becomes `!all(x) == y`. -/
theorem C51_false_outer_negation : ¬ SafeRule outerNegation :=
  breaks (z := ⟨[.binL .none .eq2 (nm (cs! "y")), stmt1], cl (cs! "any") (.un .none .bang (nm (cs! "x")))⟩)
    (q := prog1 (.un .none .bang (.bin (cl (cs! "all") (nm (cs! "x"))) .none .eq2 (nm (cs! "y")))))
    (by reads) rfl rfl (by reads) (by intro e' _ h; simp [plug, fixAt, Frame.fill, prog1, stmt1] at h)

/-- `isFALSE(all.equal(x, y)) == z` becomes `!isTRUE(all.equal(x, y)) == z`. -/
theorem C51_false_all_equal : ¬ SafeRule allEqualFalse :=
  breaks (z := ⟨[.binL .none .eq2 (nm (cs! "z")), stmt1], cl (cs! "isFALSE") (cl (cs! "all.equal") (.comma (nm (cs! "x")) .none (nm (cs! "y"))))⟩)
    (q := prog1 (.un .none .bang (.bin (cl (cs! "isTRUE") (cl (cs! "all.equal") (.comma (nm (cs! "x")) .none (nm (cs! "y"))))) .none .eq2 (nm (cs! "z")))))
    (by reads) rfl rfl (by reads) (by intro e' _ h; simp [plug, fixAt, Frame.fill, prog1, stmt1] at h)

/-- `y & if (is.null(x)) a | b else x` becomes `y & x %||% a | b`. -/
theorem C51_false_coalesce : ¬ SafeRule coalesce :=
  breaks (z := ⟨[.binR (nm (cs! "y")) .none .and, stmt1], .ifElse .none .none (cl (cs! "is.null") (nm (cs! "x"))) .none
      (.bin (nm (cs! "a")) .none .or (nm (cs! "b"))) .none (nm (cs! "x"))⟩)
    (q := prog1 (.bin (.bin (nm (cs! "y")) .none .and (.bin (nm (cs! "x")) .none (.special (cs! "||")) (nm (cs! "a")))) .none .or (nm (cs! "b"))))
    (by reads) rfl rfl (by reads) (by intro e' _ h; simp [plug, Frame.fill, prog1, stmt1] at h)

/-- `1 -> x -> y`: the fix for the first arrow makes `x <- 1 -> y`. -/
theorem C51_false_assignment : ¬ SafeRule (assignment .assign) :=
  breaks (z := ⟨[.binL .none .rassign (nm (cs! "y")), stmt1], .bin (num (cs! "1")) .none .rassign (nm (cs! "x"))⟩)
    (q := prog1 (.bin (nm (cs! "x")) .none .assign (.bin (num (cs! "1")) .none .rassign (nm (cs! "y")))))
    (by reads) rfl rfl (by reads) (by intro e' _ h; simp [plug, Frame.fill, prog1, stmt1] at h)

/-- With the option `assignment = "="`, `f(x <- 3)` becomes `f(x = 3)`, where `x` is the name of an argument. -/
theorem C51_false_assignment_equal : ¬ SafeRule (assignment .eq) :=
  breaks (z := ⟨[.callA (nm (cs! "f")) .none .par .none, stmt1], .bin (nm (cs! "x")) .none .assign (num (cs! "3"))⟩)
    (q := prog1 (cl (cs! "f") (.named .none .id (cs! "x") .none (num (cs! "3")))))
    (by reads) rfl rfl (by reads) (by
      intro e' he' h
      simp [plug, Frame.fill, prog1, stmt1, cl] at h
      rw [h] at he'; cases he')

/-- The parser finds nothing: the tokens are not R code. -/
theorem no_parse {ts : List Tok} (h : ∀ n, (RParser.run (n + 60) (.stmts .top) ts).all (fun r => !r.2.isEmpty) = true) (p : Node) : ¬ Parses ts p := by
  intro ⟨a, b, c⟩
  obtain ⟨N, hr⟩ := (RParser.all p).2.2.2 a .top (by decide) b [] rfl
  have h1 := hr (N + 60) (by omega)
  have h2 := h N
  rw [← c] at h2
  rw [List.append_nil] at h1
  rw [h1] at h2
  cases h2

theorem breaks_all {r : Zip → Option Edit} {z ed} (hp : Parses (toks z.prog) z.prog) (h : r z = some ed) (hc : innerComments (toks ed.z.e) = false)
    (hn : ∀ p, ¬ Parses (edited ed) p) : ¬ SafeRule r := fun hs => by
  obtain ⟨_, _, e', he', _, hk⟩ := hs _ _ z ed hp rfl h hc
  exact hn _ hk

/-- `(while (TRUE) a ⏎ * b)` becomes `(repeat { a ⏎ * b })`, which R cannot read. -/
theorem C51_false_repeat : ¬ SafeRule repeatRule :=
  breaks_all (z := ⟨[.paren .none .none, stmt1], .whileE .none .none (.atom .none .true (cs! "TRUE")) .none (.bin (nm (cs! "a")) nl .mul (nm (cs! "b")))⟩)
    (by reads) rfl rfl (no_parse fun n => by rfl)

/-- `if (a) { if (b) if (c) x ⏎ else y }` at top level becomes `if (a && b) if (c) x ⏎ else y`, which R cannot read. -/
theorem C51_false_unnecessary_nesting : ¬ SafeRule unnecessaryNesting :=
  breaks_all (z := ⟨[stmt1], .ifE .none .none (nm (cs! "a")) .none (.braces .none (.scons (.ifE .none .none (nm (cs! "b")) .none
      (.ifElse .none .none (nm (cs! "c")) .none (nm (cs! "x")) nl (nm (cs! "y")))) [] .snil) .none)⟩)
    (by reads) rfl rfl (no_parse fun n => by rfl)

/-- `expect_true(!(a + b = 1))` becomes `expect_false(a + b = 1)`, which R cannot read. -/
theorem C51_false_expect_not : ¬ SafeRule expectNot :=
  breaks_all (z := ⟨[stmt1], cl (cs! "expect_true") (.un .none .bang (.paren .none (.bin (.bin (nm (cs! "a")) .none .plus (nm (cs! "b"))) .none .eq (num (cs! "1"))) .none))⟩)
    (by reads) rfl rfl (no_parse fun n => by rfl)

/-- `if (is.null(x)) a == b else x` becomes `x %||% a == b`; in `if (is.null(x == y)) a == b else x == y` it becomes `x == y %||% a == b`, which R cannot read. -/
theorem C51_false_coalesce_unreadable : ∃ z ed, coalesce z = some ed ∧ Parses (toks z.prog) z.prog ∧ ed.skip = false ∧ ∀ p, ¬ Parses (edited ed) p := by
  refine ⟨⟨[stmt1], .ifElse .none .none (cl (cs! "is.null") (.bin (nm (cs! "x")) .none .eq2 (nm (cs! "y")))) .none
    (.bin (nm (cs! "a")) .none .eq2 (nm (cs! "b"))) .none (.bin (nm (cs! "x")) .none .eq2 (nm (cs! "y")))⟩, _, rfl, by reads, rfl, no_parse fun n => by rfl⟩
end Jarl

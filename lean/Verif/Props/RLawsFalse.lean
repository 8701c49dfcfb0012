import Verif.Props.RLawsExamples
/-!
# C52: what the rules do not check

Without the conditions of `C52`, the rules put in code that is not what they document: programs on which this happens.
-/
namespace Jarl
open Spec

theorem unlawful {name} {r : Zip → Option Edit} (z : Zip) (new : Node)
    (h : (match r z with
      | some ed => isStmts z.prog && wf .top z.prog && !innerComments (toks ed.z.e) && !piped ed.z.fs && placedB ed new && decide (core ed.z.e = core z.e)
      | none => false) = true) (hn : ∀ n o w, n = name → o = core z.e → w = core new → ¬ Law n o w) : ¬ Lawful name r always := by
  intro hl
  generalize hr : r z = o at h
  match o with
  | none => cases h
  | some ed =>
    simp only [Bool.and_eq_true, decide_eq_true_eq, Bool.not_eq_true'] at h
    obtain ⟨⟨⟨⟨⟨a, b⟩, c⟩, d⟩, e⟩, f⟩ := h
    exact hn _ _ _ rfl rfl rfl (f ▸ hl _ _ z ed new ⟨a, wf_WF b, rfl⟩ rfl hr c d trivial (placed_of e))

/-- A law is left only if the name is that of the rule. -/
macro "no_law" hn:ident ho:ident hw:ident : tactic => `(tactic| (
  intro n o w $hn $ho $hw h
  cases h <;> first | (cases $hn:ident; done) | (split at $hn:ident <;> (cases $hn:ident; done)) | (cases $ho:ident; done) | (cases $hw:ident; done) | skip))

theorem mkArgs_cons {as : List Node} {a b} (h : mkArgs as = .comma a .none b) : (∃ cs, as = a :: cs ∧ mkArgs cs = b) ∨ as = [.comma a .none b] := by
  match as, h with
  | [x], h => exact Or.inr (by rw [← h]; rfl)
  | x :: y :: ys, h => simp only [mkArgs] at h; cases h; exact Or.inl ⟨_, rfl, rfl⟩

theorem mkArgs_one {as : List Node} {a : Node} (h : mkArgs as = a) (hc : ∀ x g y, a ≠ .comma x g y) (hh : a ≠ .hole) : as = [a] := by
  match as, h with
  | [], h => exact absurd h.symm hh
  | [x], h => exact congrArg (fun x => [x]) h
  | x :: y :: ys, h => exact absurd h.symm (hc _ _ _)

theorem mkArgs_two {as : List Node} {a b} (h : mkArgs as = .comma a .none b) (hc : ∀ x g y, b ≠ .comma x g y) (hh : b ≠ .hole) : as = [a, b] ∨ as = [.comma a .none b] := by
  rcases mkArgs_cons h with ⟨cs, rfl, h'⟩ | h
  · exact Or.inl (by rw [mkArgs_one h' hc hh])
  · exact Or.inr h

theorem mkArgs_three {as : List Node} {a b c} (h : mkArgs as = .comma a .none (.comma b .none c)) (hc : ∀ x g y, c ≠ .comma x g y) (hh : c ≠ .hole) :
    as = [a, b, c] ∨ as = [a, .comma b .none c] ∨ as = [.comma a .none (.comma b .none c)] := by
  rcases mkArgs_cons h with ⟨cs, rfl, h'⟩ | h
  · rcases mkArgs_two h' hc hh with rfl | rfl
    · exact Or.inl rfl
    · exact Or.inr (Or.inl rfl)
  · exact Or.inr (Or.inr h)

theorem callOf_args {f F : Node} {as args} (h : callOf f as = .call F .none .par args .none) : f = F ∧ mkArgs as = args := by
  unfold callOf at h; injection h; exact ⟨by assumption, by assumption⟩

/-- `any(is.na(x), y)` becomes `anyNA(x)`. -/
theorem C52_false_any_is_na : ¬ Lawful (cs! "any_is_na") anyIsNa always :=
  unlawful ⟨[stmt1], cl (cs! "any") (a2 (cl (cs! "is.na") x') (nm (cs! "y")))⟩ (cl (cs! "anyNA") x') (by decide +kernel) (by no_law hn ho hw)

/-- `any(duplicated(x), y)` becomes `anyDuplicated(x) > 0`. -/
theorem C52_false_any_duplicated : ¬ Lawful (cs! "any_duplicated") anyDuplicated always :=
  unlawful ⟨[stmt1], cl (cs! "any") (a2 (cl (cs! "duplicated") x') (nm (cs! "y")))⟩ (op (cl (cs! "anyDuplicated") x') .gt (num (cs! "0"))) (by decide +kernel) (by no_law hn ho hw)

/-- `which(grepl("a", x), useNames = FALSE)` becomes `grep("a", x)`. -/
theorem C52_false_which_grepl : ¬ Lawful (cs! "which_grepl") whichGrepl always :=
  unlawful ⟨[stmt1], cl (cs! "which") (a2 (cl (cs! "grepl") (a2 (str (cs! "'a'")) x')) (arg (cs! "useNames") no))⟩ (cl (cs! "grep") (a2 (str (cs! "'a'")) x'))
    (by decide +kernel) (by no_law hn ho hw)

/-- `length(x == y, z)` becomes `length(x) == y`. -/
theorem C52_false_length_test : ¬ Lawful (cs! "length_test") lengthTest always :=
  unlawful ⟨[stmt1], cl (cs! "length") (a2 (op x' .eq2 (nm (cs! "y"))) (nm (cs! "z")))⟩ (op (cl (cs! "length") x') .eq2 (nm (cs! "y"))) (by decide +kernel) (by no_law hn ho hw)

/-- `any(-x)` becomes `!all(x)`. -/
theorem C52_false_outer_negation : ¬ Lawful (cs! "outer_negation") outerNegation always :=
  unlawful ⟨[stmt1], cl (cs! "any") (.un .none .minus x')⟩ (neg (cl (cs! "all") x')) (by decide +kernel) (by no_law hn ho hw)

/-- `NULL %in% x` becomes `is.null(x)`. -/
theorem C52_false_equals_null : ¬ Lawful (cs! "equals_null") equalsNull always :=
  unlawful ⟨[stmt1], op null (.special (cs! "in")) x'⟩ (cl (cs! "is.null") x') (by decide +kernel) (by
    no_law hn ho hw
    rename_i hlr _ _
    cases ho
    rcases hlr with ⟨h1, _⟩ | ⟨_, _, h1⟩
    · subst h1; cases hw
    · exact h1 rfl)

/-- `sample(size = 5, 1:9)` becomes `sample.int(9, 1:9)`: what is dropped is the size. -/
theorem C52_false_sample_int : ¬ Lawful (cs! "sample_int") sampleInt always :=
  unlawful ⟨[stmt1], cl (cs! "sample") (a2 (arg (cs! "size") (num (cs! "5"))) (op (num (cs! "1")) .colon (num (cs! "9"))))⟩
    (cl (cs! "sample.int") (a2 (num (cs! "9")) (op (num (cs! "1")) .colon (num (cs! "9"))))) (by decide +kernel) (by
    no_law hn ho hw
    next as hne _ _ _ =>
      match as, hne with
      | a :: as, _ => cases (callOf_args ho).2)

/-- `sample(1:9)` becomes `sample.int(9, )`. -/
theorem C52_false_sample_int_comma : ¬ Lawful (cs! "sample_int") sampleInt always :=
  unlawful ⟨[stmt1], cl (cs! "sample") (op (num (cs! "1")) .colon (num (cs! "9")))⟩ (cl (cs! "sample.int") (a2 (num (cs! "9")) .hole)) (by decide +kernel) (by
    no_law hn ho hw
    next as hne _ _ _ =>
      match as, hne with
      | a :: as, _ => cases (callOf_args ho).2)

/-- `grep("a", x, value = FALSE)` becomes `grepv("a", x)`. -/
theorem C52_false_grepv : ¬ Lawful (cs! "grepv") grepv always :=
  unlawful ⟨[stmt1], cl (cs! "grep") (a3 (str (cs! "'a'")) x' (arg (cs! "value") no))⟩ (cl (cs! "grepv") (a2 (str (cs! "'a'")) x')) (by decide +kernel) (by
    no_law hn ho hw
    next hm =>
      rcases mkArgs_three (callOf_args ho).2 (by intros; intro h; cases h) (by intro h; cases h) with rfl | rfl | rfl
      all_goals simp [core, str, x', nm] at hm
      cases hm)

/-- `expect_equal(x, TRUE, info)` becomes `expect_true(x)`. -/
theorem C52_false_expect_true_false : ¬ Lawful (cs! "expect_true_false") expectTrueFalse always :=
  unlawful ⟨[stmt1], cl (cs! "expect_equal") (a3 x' yes (nm (cs! "info")))⟩ (cl (cs! "expect_true") x') (by decide +kernel) (by
    no_law hn ho hw
    next hl _ h1 h2 =>
      rcases mkArgs_three (callOf_args ho).2 (by intros; intro h; cases h) (by intro h; cases h) with rfl | rfl | rfl
      all_goals simp at hl
      rcases h1 with ⟨_, h⟩ | ⟨_, h⟩ <;> cases h)

/-- `expect_true(!(x = 1))` becomes `expect_false(x = 1)`. -/
theorem C52_false_expect_not : ¬ Lawful (cs! "expect_not") expectNot always :=
  unlawful ⟨[stmt1], cl (cs! "expect_true") (neg (.paren .none (op x' .eq (num (cs! "1"))) .none))⟩ (cl (cs! "expect_false") (arg (cs! "x") (num (cs! "1"))))
    (by decide +kernel) (by
    no_law hn ho hw
    next h1 =>
      have := mkArgs_one (callOf_args ho).2 (by intros; intro h; cases h) (by intro h; cases h)
      subst this
      have hx := (callOf_args hw).2
      simp only [mkArgs] at hx
      subst hx
      obtain ⟨_, _, h⟩ := h1
      cases h)

/-- `substr(x, 1, 2) == "abc"`, which is always false, becomes `startsWith(x, "abc")`. -/
theorem C52_false_string_boundary : ¬ Lawful (cs! "string_boundary") stringBoundary always :=
  unlawful ⟨[stmt1], op (cl (cs! "substr") (a3 x' (num (cs! "1")) (num (cs! "2")))) .eq2 (str (cs! "\"abc\""))⟩ (cl (cs! "startsWith") (a2 x' (str (cs! "\"abc\""))))
    (by decide +kernel) (by
    no_law hn ho hw
    all_goals rename_i hs hlr _
    all_goals cases ho
    all_goals rcases hlr with ⟨h1, h2⟩ | ⟨h1, h2⟩
    all_goals try (cases h2; done)
    · subst h2
      injection (callOf_args h1.symm).2 with _ _ h3
      injection h3 with _ _ h3
      obtain ⟨_, body, hb, _, k, ht, _⟩ := hs
      simp only [mkArgs] at h3
      rw [h3] at ht
      injection hb with _ _ hb
      have hlen : body.length = 3 := by have := congrArg List.length hb; simp at this; omega
      rw [hlen] at ht
      cases ht
    · subst h2
      cases (callOf_args hw).1)

/-- `x = y = 3` becomes `x <- y = 3`, which R reads as `(x <- y) = 3`. -/
theorem C52_false_assignment : ¬ Lawful (cs! "assignment <-") (assignment .assign) always :=
  unlawful ⟨[stmt1], op x' .eq (op (nm (cs! "y")) .eq (num (cs! "3")))⟩ (op (op x' .assign (nm (cs! "y"))) .eq (num (cs! "3"))) (by decide +kernel) (by no_law hn ho hw)

/-- `if (is.null(x)) a + b else x` becomes `x %||% a + b`, which R reads as `(x %||% a) + b`. -/
theorem C52_false_coalesce : ¬ Lawful (cs! "coalesce") coalesce always :=
  unlawful ⟨[stmt1], .ifElse .none .none (cl (cs! "is.null") x') .none (op (nm (cs! "a")) .plus (nm (cs! "b"))) .none x'⟩
    (op (op x' (.special (cs! "||")) (nm (cs! "a"))) .plus (nm (cs! "b"))) (by decide +kernel) (by no_law hn ho hw)

/-- `(while (TRUE) a ⏎ - b)` becomes `(repeat { a ⏎ - b })`, with two statements in place of one. -/
theorem C52_false_repeat : ¬ Lawful (cs! "repeat") repeatRule always :=
  unlawful ⟨[.paren .none .none, stmt1], .whileE .none .none yes .none (.bin (nm (cs! "a")) nl .minus (nm (cs! "b")))⟩
    (.repE .none (.braces .none (.scons (nm (cs! "a")) [] (.scons (.un nl .minus (nm (cs! "b"))) [] .snil)) .none)) (by decide +kernel) (by
    no_law hn ho hw
    next h =>
      cases ho; cases hw
      rcases h with h | h <;> cases h)

/-- `system.file("a", file.path("b"), package = "p")` becomes `system.file("b", package = "p")`. -/
theorem C52_false_system_file : ¬ Lawful (cs! "system_file") systemFile always :=
  unlawful ⟨[stmt1], cl (cs! "system.file") (a3 (str (cs! "'a'")) (cl (cs! "file.path") (str (cs! "'b'"))) (arg (cs! "package") (str (cs! "'p'"))))⟩
    (cl (cs! "system.file") (a2 (str (cs! "'b'")) (arg (cs! "package") (str (cs! "'p'"))))) (by decide +kernel) (by
    no_law hn ho hw
    next hf _ _ _ _ _ =>
      rcases mkArgs_three (callOf_args ho).2 (by intros; intro h; cases h) (by intro h; cases h) with rfl | rfl | rfl
      all_goals simp [nameOf, core, str, callOf, cl, arg] at hf)

/-- `gsub("a", "b", x, fixed = flag)` becomes `gsub("a", "b", x, fixed = flag, fixed = TRUE)`, which is an error in R. -/
theorem C52_false_fixed_regex : ¬ Lawful (cs! "fixed_regex") fixedRegex always :=
  unlawful ⟨[stmt1], cl (cs! "gsub") (.comma (str (cs! "'a'")) .none (a3 (str (cs! "'b'")) x' (arg (cs! "fixed") (nm (cs! "flag")))))⟩
    (cl (cs! "gsub") (.comma (str (cs! "'a'")) .none (.comma (str (cs! "'b'")) .none (a3 x' (arg (cs! "fixed") (nm (cs! "flag"))) (arg (cs! "fixed") yes)))))
    (by decide +kernel) (by
    no_law hn ho hw
    next hno _ _ ha =>
      rcases mkArgs_cons (callOf_args ho).2 with ⟨cs, rfl, h⟩ | rfl
      · rcases mkArgs_three h (by intros; intro h; cases h) (by intro h; cases h) with rfl | rfl | rfl
        · exact (hno _ (List.mem_cons_of_mem _ (List.mem_cons_of_mem _ (List.mem_cons_of_mem _ List.mem_cons_self)))).1 rfl
        · cases ha _ (List.mem_cons_of_mem _ (List.mem_cons_of_mem _ List.mem_cons_self))
        · cases ha _ (List.mem_cons_of_mem _ List.mem_cons_self)
      · cases ha _ List.mem_cons_self)

/-- `sapply(x, length, simplify = FALSE)` becomes `lengths(x)`. -/
theorem C52_false_lengths : ¬ Lawful (cs! "lengths") lengths always :=
  unlawful ⟨[stmt1], cl (cs! "sapply") (a3 x' (nm (cs! "length")) (arg (cs! "simplify") no))⟩ (cl (cs! "lengths") x') (by decide +kernel) (by
    no_law hn ho hw
    · rename_i hl _ hF hlen hX
      rcases mkArgs_three (callOf_args ho).2 (by intros; intro h; cases h) (by intro h; cases h) with rfl | rfl | rfl
      · cases hl
      · cases hF
      · cases hl
    · rename_i h _ _ _ _ _
      rw [(callOf_args ho).1] at h
      rcases h with h | ⟨_, _, h⟩ <;> cases h
    · rename_i h _ _ _
      rw [(callOf_args ho).1] at h
      rcases h with (h | ⟨_, _, h⟩) | (h | ⟨_, _, h⟩) <;> cases h)

/-- `sprintf("abc", x)`, which is a vector as long as `x`, becomes `"abc"`. -/
theorem C52_false_sprintf : ¬ Lawful (cs! "sprintf") sprintfRule always :=
  unlawful ⟨[stmt1], cl (cs! "sprintf") (a2 (str (cs! "\"abc\"")) x')⟩ (str (cs! "\"abc\"")) (by decide +kernel) (by
    no_law hn ho hw
    next hs _ _ _ =>
      rcases mkArgs_two (callOf_args ho).2 (by intros; intro h; cases h) (by intro h; cases h) with rfl | rfl
      · cases hs.1
      · cases hs.2.2)

/-- `sprintf("\\x25\\x25")`, which is `"%"`, becomes `"\\x25\\x25"`, which is `"%%"`. -/
theorem C52_false_sprintf_codes : ¬ Lawful (cs! "sprintf") sprintfRule always :=
  unlawful ⟨[stmt1], cl (cs! "sprintf") (str (cs! "\"\\x25\\x25\""))⟩ (str (cs! "\"\\x25\\x25\"")) (by decide +kernel) (by
    no_law hn ho hw
    next ps _ hs _ _ hc =>
      have := mkArgs_one (callOf_args ho).2 (by intros; intro h; cases h) (by intro h; cases h)
      subst this
      have hr : render ps = cs! "\"\\x25\\x25\"" := by
        have := hs.2.2
        simpa [matchArg, nameOf, core, str, valueOf] using this.symm
      rw [hr] at hc
      exact hc ['"'] 'x' _ rfl (by decide))

end Jarl

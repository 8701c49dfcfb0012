import Verif.Props.RReportsMain
/-!
# C55, C56: examples, and what one would expect but does not hold
-/
namespace Jarl
open Spec

/-- The rules that are on without configuration. -/
def defaultOn (n : Str) : Bool := Rule.all.any (fun r => decide (r.name = n) && r.enabledByDefault)

/-- The options without configuration. -/
def defaultOpts : ROpts := ⟨dupArgsDefaults, implicitDefaults, undesirableDefaults⟩

theorem defaultOpts_resolved : resolveOpts {} {} {} = some defaultOpts := rfl

/-- `name <- value` -/
def asg (n : Str) (v : Node) : Node := op (nm n) .assign v

/-- `if (c) t` -/
def iff' (c t : Node) : Node := .ifE .none .none c .none t

/-- `for (v in s) b` -/
def for' (v : Str) (s b : Node) : Node := .forE .none .none .none v .none s .none b

/-- What is reported for a program that R can read. -/
def Reports (p : Node) (en : Str → Bool) (ds : List (Str × Said)) : Prop :=
  Parses (toks p) p ∧ ∃ ns, checkNodes en defaultOpts p = .ok ns ∧ ns.map (fun d => (d.rule, d.said)) = ds

theorem reports_of {p en ds} (h : (isStmts p && wf .top p && (match checkNodes en defaultOpts p with
    | .ok ns => decide (ns.map (fun d => (d.rule, d.said)) = ds)
    | .error _ => false)) = true) : Reports p en ds := by
  generalize hc : checkNodes en defaultOpts p = c at h
  simp only [Bool.and_eq_true] at h
  refine ⟨parses_of (by simp [h.1.1, h.1.2]), ?_⟩
  cases c with
  | error e => simp at h
  | ok ns => exact ⟨ns, hc, of_decide_eq_true h.2⟩

/-- A program that R can read, but jarl fails on. -/
def Refused (p : Node) (en : Str → Bool) (e : RuleFail) : Prop := Parses (toks p) p ∧ checkNodes en defaultOpts p = .error e

theorem refused_of {p en e} (h : (isStmts p && wf .top p && (match checkNodes en defaultOpts p with
    | .ok _ => false
    | .error e' => decide (e' = e))) = true) : Refused p en e := by
  generalize hc : checkNodes en defaultOpts p = c at h
  simp only [Bool.and_eq_true] at h
  refine ⟨parses_of (by simp [h.1.1, h.1.2]), ?_⟩
  cases c with
  | ok ns => simp at h
  | error e' => rw [hc, of_decide_eq_true h.2]

/-! ## Examples -/

/-- `if (1e-3 || a) b` -/
theorem C55_ex_if : Reports (prog1 (iff' (op (num (cs! "1e-3")) .or2 (nm (cs! "a"))) (nm (cs! "b")))) allOn [(cs! "if_always_true", .ifTrue)] := reports_of (by decide +kernel)

/-- `if (1e-400) b`: too small for a double. -/
theorem C55_ex_if_zero : Reports (prog1 (iff' (num (cs! "1e-400")) (nm (cs! "b")))) allOn [] := reports_of (by decide +kernel)

/-- `Constant` holds for `!(0L | FALSE)`. -/
theorem C55_ex_constant : Constant (.un .none .bang (.paren .none (op (.atom .none .int (cs! "0L")) .or no) .none)) :=
  .un (by simp) (.paren (.bin (by simp) (.int (b := false) ⟨cs! "0", by simp [AllDigits], by simp, Or.inr rfl, by simp⟩ (by decide) rfl) (.atom (by simp))))

/-- `if (a & b) c`, `while (a | "01") c` -/
theorem C55_ex_logic : Reports (prog1 (iff' (op (nm (cs! "a")) .and (nm (cs! "b"))) (nm (cs! "c")))) allOn [(cs! "vector_logic", .vectorLogic .and true)] ∧
    Reports (prog1 (.whileE .none .none (op (nm (cs! "a")) .or (str (cs! "\"01\""))) .none (nm (cs! "c")))) allOn [] := ⟨reports_of (by decide +kernel), reports_of (by decide +kernel)⟩

/-- `if (a <- b) c`, `f(a <- b)`, `quote(a <- b)`, `if (c) a <- b`. -/
theorem C55_ex_implicit : Reports (prog1 (iff' (asg (cs! "a") (nm (cs! "b"))) (nm (cs! "c")))) allOn [(cs! "implicit_assignment", .implicitIf)] ∧
    Reports (prog1 (cl (cs! "f") (asg (cs! "a") (nm (cs! "b"))))) allOn [(cs! "implicit_assignment", .implicitArg)] ∧
    Reports (prog1 (cl (cs! "quote") (asg (cs! "a") (nm (cs! "b"))))) allOn [] ∧
    Reports (prog1 (iff' (nm (cs! "c")) (asg (cs! "a") (nm (cs! "b"))))) allOn [] :=
  ⟨reports_of (by decide +kernel), reports_of (by decide +kernel), reports_of (by decide +kernel), reports_of (by decide +kernel)⟩

/-- `for (i in f(i)) for (i in x) i` -/
theorem C55_ex_for : Reports (prog1 (for' (cs! "i") (cl (cs! "f") (nm (cs! "i"))) (for' (cs! "i") x' (nm (cs! "i"))))) allOn
    [(cs! "for_loop_index", .forIndex), (cs! "for_loop_dup_index", .forDup)] := reports_of (by decide +kernel)

/-- `browser()`, `f(a = 1, 'a' = 2)`, `c(a = 1, a = 2)`, `x <- {}`, `a:::b`, `download.file(u, d)` -/
theorem C55_ex_calls : Reports (prog1 (cl (cs! "browser") .hole)) allOn [(cs! "browser", .browser), (cs! "undesirable_function", .undesirable (cs! "browser"))] ∧
    Reports (prog1 (cl (cs! "f") (a2 (arg (cs! "a") (num (cs! "1"))) (.named .none .str (cs! "'a'") .none (num (cs! "2")))))) allOn
      [(cs! "duplicated_arguments", .dupArgs [cs! "a"])] ∧
    Reports (prog1 (cl (cs! "c") (a2 (arg (cs! "a") (num (cs! "1"))) (arg (cs! "a") (num (cs! "2")))))) allOn [] ∧
    Reports (prog1 (asg (cs! "x") (.braces .none .snil .none))) allOn [(cs! "empty_assignment", .emptyAssign)] ∧
    Reports (prog1 (.atom .none (.ns (cs! "a") true) (cs! "b"))) allOn [(cs! "internal_function", .internal)] ∧
    Reports (prog1 (cl (cs! "download.file") (a2 (nm (cs! "u")) (nm (cs! "d"))))) allOn [(cs! "download_file", .downloadNoMode)] :=
  ⟨reports_of (by decide +kernel), reports_of (by decide +kernel), reports_of (by decide +kernel), reports_of (by decide +kernel), reports_of (by decide +kernel),
    reports_of (by decide +kernel)⟩

/-! ## What does not hold -/

/-- implicit_assignment does not report only assignments outside of bodies: `if (a) x <- y <- 1` and `if (a) for (i in x) y <- i` are reported, although all assignments are in bodies. -/
theorem C55_false_implicit_bodies :
    Reports (prog1 (iff' (nm (cs! "a")) (asg (cs! "x") (asg (cs! "y") (num (cs! "1")))))) defaultOn [(cs! "implicit_assignment", .implicitIf)] ∧
    Reports (prog1 (iff' (nm (cs! "a")) (for' (cs! "i") x' (asg (cs! "y") (nm (cs! "i")))))) defaultOn [(cs! "implicit_assignment", .implicitIf)] :=
  ⟨reports_of (by decide +kernel), reports_of (by decide +kernel)⟩

/-- for_loop_index does not find every use of the variable in the sequence: `for (x in 1:x)` and `for (x in x$a)` are not reported; and what it finds is no use in `for (x in f(x = 1))`. -/
theorem C55_false_for_loop_index :
    (UsesName (cs! "x") (op (num (cs! "1")) .colon x') ∧ Reports (prog1 (for' (cs! "x") (op (num (cs! "1")) .colon x') (nm (cs! "y")))) allOn []) ∧
    (UsesName (cs! "x") (.ext x' .none false .none .id (cs! "a")) ∧ Reports (prog1 (for' (cs! "x") (.ext x' .none false .none .id (cs! "a")) (nm (cs! "y")))) allOn []) ∧
    Reports (prog1 (for' (cs! "x") (cl (cs! "f") (arg (cs! "x") (num (cs! "1")))) (nm (cs! "y")))) allOn [(cs! "for_loop_index", .forIndex)] :=
  ⟨⟨⟨[.binR (num (cs! "1")) .none .colon], .none, rfl⟩, reports_of (by decide +kernel)⟩,
   ⟨⟨[.ext .none false .none .id (cs! "a")], .none, rfl⟩, reports_of (by decide +kernel)⟩, reports_of (by decide +kernel)⟩

/-- for_loop_dup_index reports loops in functions of their own: `for (i in x) f(function() for (i in y) i)`. -/
theorem C55_false_dup_index :
    Reports (prog1 (for' (cs! "i") x' (cl (cs! "f") (.func .none false .none .hole .none (for' (cs! "i") (nm (cs! "y")) (nm (cs! "i"))))))) defaultOn
      [(cs! "for_loop_dup_index", .forDup)] := reports_of (by decide +kernel)

/-- duplicated_arguments takes different names for the same: `f("it's" = 1, its = 2)`. -/
theorem C55_false_duplicated :
    Reports (prog1 (cl (cs! "f") (a2 (.named .none .str (cs! "\"it's\"") .none (num (cs! "1"))) (arg (cs! "its") (num (cs! "2")))))) defaultOn
      [(cs! "duplicated_arguments", .dupArgs [cs! "its"])] := reports_of (by decide +kernel)

/-- download_file reports a download with mode `wb`, if an argument in front of the mode is given by name: `download.file(url = u, d, "auto", FALSE, "wb")`. -/
theorem C55_false_download : ∃ args,
    matchArg downloadParams (items args) (cs! "mode") = some (str (cs! "\"wb\"")) ∧
    Reports (prog1 (cl (cs! "download.file") args)) allOn [(cs! "download_file", .downloadNoMode)] :=
  ⟨a2 (arg (cs! "url") (nm (cs! "u"))) (a2 (nm (cs! "d")) (a3 (str (cs! "\"auto\"")) no (str (cs! "\"wb\"")))), by decide +kernel, reports_of (by decide +kernel)⟩

/-- `sapply(X = x, FUN = length)` makes jarl crash, with the rules that are on by default. -/
theorem C56_false_crash : Refused (prog1 (cl (cs! "sapply") (a2 (arg (cs! "X") x') (arg (cs! "FUN") (nm (cs! "length")))))) defaultOn .panic := refused_of (by decide +kernel)

/-- And `x |> sapply(FUN = length)`. -/
theorem C56_false_crash_pipe : Refused (prog1 (op x' .pipe (cl (cs! "sapply") (arg (cs! "FUN") (nm (cs! "length")))))) defaultOn .panic := refused_of (by decide +kernel)

/-- Jarl refuses files that R can read: `if (a) next()`, `if (0x10) a`, `length(x = )`, `vapply(x, FUN = )`. -/
theorem C56_false_refused :
    Refused (prog1 (.repE .none (iff' (nm (cs! "a")) (.call (.atom .none .next (cs! "next")) .none .par .hole .none)))) defaultOn .error ∧
    Refused (prog1 (iff' (num (cs! "0x10")) (nm (cs! "a")))) defaultOn .error ∧
    Refused (prog1 (iff' (.atom .none .int (cs! "1e3L")) (nm (cs! "a")))) defaultOn .error ∧
    Refused (prog1 (cl (cs! "length") (arg (cs! "x") .hole))) defaultOn .error ∧
    Refused (prog1 (cl (cs! "vapply") (a2 x' (arg (cs! "FUN") .hole)))) defaultOn .error :=
  ⟨refused_of (by decide +kernel), refused_of (by decide +kernel), refused_of (by decide +kernel), refused_of (by decide +kernel), refused_of (by decide +kernel)⟩

/-- `sample(n = )` crashes, if sample_int is on. -/
theorem C56_false_crash_sample : Refused (prog1 (cl (cs! "sample") (arg (cs! "n") .hole))) allOn .panic := refused_of (by decide +kernel)

end Jarl

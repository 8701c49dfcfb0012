import Verif.Props.RFoundMain
import Verif.Props.RLawsExamples
/-!
# C63: every rule meets its condition on some program
-/
namespace Jarl
open Spec

/-- The premises of `C63_found` for the code `e` with `fs` around it. -/
def Meets (name : Str) (cond : Zip → Prop) (fs : List Frame) (e : Node) : Prop :=
  Parses (toks (plug fs e)) (plug fs e) ∧ LookedAt (plug fs e) ⟨fs, e⟩ ∧ (∃ new, Law name (bare e) new) ∧ cond ⟨fs, e⟩ ∧ (name, cond) ∈ foundRules

theorem meets_of {name cond fs e new} (h : (isStmts (plug fs e) && wf .top (plug fs e) && decide (Look.node ⟨fs, e⟩ ∈ visits (plug fs e))) = true) (hl : Law name (bare e) new)
    (hc : cond ⟨fs, e⟩) (hr : (name, cond) ∈ foundRules) : Meets name cond fs e := by
  simp only [Bool.and_eq_true, decide_eq_true_eq] at h
  exact ⟨⟨h.1.1, wf_WF h.1.2, rfl⟩, (C53_looked_at _ _).mp h.2, ⟨_, hl⟩, hc, hr⟩

/-- `y <- …` -/
def afterY : List Frame := [.binR (nm (cs! "y")) .none .assign, stmt1]

/-- A call, over several lines. -/
def clL (f : Str) (args : Node) : Node := .call (nm f) .none .par args nl

/-- `x` on a new line. -/
def xL : Node := .atom nl .id (cs! "x")

/-- A function by its name. -/
theorem fn_self {s : Str} : Fn s (.atom .none .id s) := Or.inl rfl

/-- A token by its text. -/
theorem text_id {s : Str} : Text s (.atom .none .id s) := ⟨.id, rfl, nofun⟩
theorem text_num {s : Str} : Text s (.atom .none .double s) := ⟨.double, rfl, nofun⟩
theorem text_true {s : Str} : Text s (.atom .none .true s) := ⟨.true, rfl, nofun⟩
theorem text_na {s : Str} : Text s (.atom .none .na s) := ⟨.na, rfl, nofun⟩

/-- Check the program. -/
macro "meets " l:term ", " c:term : tactic => `(tactic| (
  refine meets_of (by decide +kernel) $l $c ?_
  unfold foundRules
  repeat (first | exact List.mem_cons_self | apply List.mem_cons_of_mem)))

/-- Two names in order. -/
theorem inOrder_of {params as} (h : params.Pairwise (fun x y => as.any (fun a => nameOf a = some x) = true → as.any (fun a => nameOf a = some y) = true)) : InOrder params as := by
  refine h.imp fun {x y} h => ?_
  simpa [List.any_eq_true] using h

example : Meets (cs! "any_is_na") (notBoth (Const .na)) afterY (clL (cs! "any") (clL (cs! "is.na") xL)) := by
  meets .any_is_na (as := [x']) fn_self fn_self, nofun
example : Meets (cs! "any_duplicated") always afterY (clL (cs! "any") (clL (cs! "duplicated") xL)) := by meets .any_duplicated (as := [x']) fn_self fn_self, trivial
example : Meets (cs! "which_grepl") always afterY (clL (cs! "which") (clL (cs! "grepl") (a2 (str (cs! "'a'")) xL))) := by meets .which_grepl (as := [str (cs! "'a'"), x']) fn_self fn_self, trivial
example : Meets (cs! "length_levels") always afterY (clL (cs! "length") (clL (cs! "levels") xL)) := by meets .length_levels (as := [x']) fn_self fn_self, trivial
example : Meets (cs! "length_test") always afterY (clL (cs! "length") (op xL .eq2 (num (cs! "1")))) := by meets .length_test (l := x') fn_self (by decide), trivial
example : Meets (cs! "outer_negation") notNegated afterY (clL (cs! "any") (neg xL)) := by
  meets .outer_negation_any (x := x') text_id, ⟨id, by intro a ha; simp [argsOf, clL, items, argList, neg] at ha; subst ha; intros; intro h; cases h⟩
example : Meets (cs! "redundant_ifelse") ifelseOrdered afterY (clL (cs! "ifelse") (a3 xL yes (arg (cs! "no") no))) := by
  meets .redundant_ifelse (b := false) (as := [x', yes, arg (cs! "no") no]) (c := x') (name := cs! "ifelse") (p1 := cs! "test") (p2 := cs! "yes") (p3 := cs! "no") fn_self rfl rfl (by decide) rfl rfl rfl ⟨_, rfl⟩ ⟨_, rfl⟩,
    ⟨inOrder_of (by decide +kernel), inOrder_of (by decide +kernel)⟩
example : Meets (cs! "all_equal") equalCondition afterY (clL (cs! "isFALSE") (clL (cs! "all.equal") (a2 xL x'))) := by
  meets .all_equal_false (as := [x', x']) fn_self fn_self, ⟨(by intro f g args g2 h hf; cases h; rcases hf with h | ⟨_, _, h⟩ <;> simp [bare, nm, sym] at h), (by intro g o x f fs h; cases h)⟩
example : Meets (cs! "all_equal") equalCondition ifCond (neg (clL (cs! "all.equal") (a2 xL x'))) := by
  meets .all_equal_true (b := true) (as := [x', x']) fn_self, ⟨nofun, (by intro g o x f fs h h' g' o' hf; cases h; cases h'; cases hf)⟩
example : Meets (cs! "class_equals") comparedCondition ifCond (op (clL (cs! "class") xL) .eq2 (str (cs! "'a'"))) := by
  meets .class_equals (x := x') (s := str (cs! "'a'")) (l := cl (cs! "class") x') (r := str (cs! "'a'")) fn_self nofun ⟨_, rfl⟩ (Or.inl ⟨rfl, rfl⟩) (Or.inl rfl), fun _ _ _ _ _ => trivial
example : Meets (cs! "lengths") (nobodyNamed (cs! "X")) afterY (clL (cs! "sapply") (a2 xL (arg (cs! "FUN") (nm (cs! "length"))))) := by
  meets .lengths (as := [x', arg (cs! "FUN") (nm (cs! "length"))]) fn_self rfl (by decide) rfl text_id rfl, (by unfold nobodyNamed; decide +kernel)
example : Meets (cs! "sample_int") (nobodyNamed (cs! "n")) afterY (clL (cs! "sample") (a2 (op (num (cs! "1")) .colon (num (cs! "9"))) xL)) := by
  meets .sample_int (as := [x']) fn_self (Or.inl text_num) nofun (by decide), (by unfold nobodyNamed; decide +kernel)
example : Meets (cs! "grepv") always afterY (clL (cs! "grep") (a3 (str (cs! "'a'")) xL (arg (cs! "value") yes))) := by
  meets .grepv (as := [str (cs! "'a'"), x', arg (cs! "value") yes]) (k := cs! "TRUE") (g := .id) fn_self (by decide) (by decide), trivial
example : Meets (cs! "system_file") always afterY (clL (cs! "system.file") (a2 (clL (cs! "file.path") (a2 (str (cs! "'a'")) xL)) (arg (cs! "package") x'))) := by
  meets .system_file (as := [cl (cs! "file.path") (a2 (str (cs! "'a'")) x'), arg (cs! "package") x']) (ps := [str (cs! "'a'"), x']) fn_self rfl text_id (by decide) nofun (by decide) (by decide), trivial
example : Meets (cs! "list2df") (ordered [cs! "what", cs! "args"]) afterY (clL (cs! "do.call") (a2 (nm (cs! "cbind.data.frame")) xL)) := by
  meets .list2df (as := [nm (cs! "cbind.data.frame"), x']) fn_self rfl (by decide) rfl (Or.inl text_id) rfl, inOrder_of (by decide +kernel)
example : Meets (cs! "matrix_apply") (ordered [cs! "X", cs! "MARGIN", cs! "FUN"]) afterY (clL (cs! "apply") (a3 xL (num (cs! "1")) (nm (cs! "mean")))) := by
  meets .matrix_apply (as := [x', num (cs! "1"), nm (cs! "mean")]) fn_self (by decide) rfl (by decide) rfl rfl text_num rfl text_id (show ((cs! "mean", cs! "1"), cs! "rowMeans") ∈ marginFn by decide), inOrder_of (by decide +kernel)
example : Meets (cs! "seq") always afterY (op (num (cs! "1")) .colon (clL (cs! "length") xL)) := by meets .seq_length (as := [x']) (Or.inl text_num) fn_self, trivial
example : Meets (cs! "seq2") always afterY (clL (cs! "seq") (clL (cs! "nrow") xL)) := by meets .seq2_len (name := cs! "nrow") (as := [x']) fn_self fn_self (by decide), trivial
example : Meets (cs! "fixed_regex") always afterY (clL (cs! "gsub") (a3 (str (cs! "'-'")) (str (cs! "''")) xL)) := by
  meets .fixed_regex (name := cs! "gsub") (as := [str (cs! "'-'"), str (cs! "''"), x']) fn_self (Or.inr ⟨by decide, rfl⟩) (by decide) (by decide) rfl (by decide) (by decide), trivial
example : Meets (cs! "expect_true_false") twoOrdered afterY (clL (cs! "expect_equal") (a2 xL yes)) := by
  meets .expect_true_false (b := true) (as := [x', yes]) (Or.inl fn_self) rfl (by decide) (Or.inl ⟨rfl, rfl⟩) text_true, fun _ => inOrder_of (by decide +kernel)
example : Meets (cs! "expect_null") twoOrdered afterY (clL (cs! "expect_equal") (a2 null xL)) := by
  meets .expect_null (as := [null, x']) (Or.inl fn_self) rfl (by decide) (Or.inr ⟨rfl, rfl⟩) ⟨_, rfl⟩, fun _ => inOrder_of (by decide +kernel)
example : Meets (cs! "expect_not") onceNegated afterY (clL (cs! "expect_true") (neg xL)) := by
  meets .expect_not (b := true) (as := [neg x']) fn_self ⟨rfl, by decide, rfl⟩, (by intro a ha; simp [argsOf, clL, items, argList, neg] at ha; subst ha; intro g g' x h; cases h)

/-- What is compared. -/
theorem expect_vals {as : List Node} {a b u v : Node} (h : Expect as a b) (h1 : matchArg [cs! "object", cs! "expected"] as (cs! "object") = some u)
    (h2 : matchArg [cs! "object", cs! "expected"] as (cs! "expected") = some v) : (a = u ∧ b = v) ∨ (a = v ∧ b = u) := by
  unfold Expect at h
  simp only [h1, h2, Option.some.injEq] at h
  rcases h with ⟨rfl, rfl⟩ | ⟨rfl, rfl⟩ <;> simp

theorem not_call_atom {n g k s} : ¬ CallOf n (.atom g k s) := by rintro ⟨_, _, _, h⟩; cases h

example : Meets (cs! "expect_named") (oneSide (cs! "names")) afterY (clL (cs! "expect_equal") (a2 (clL (cs! "names") xL) (str (cs! "'a'")))) := by
  meets .expect_named (as := [cl (cs! "names") x', str (cs! "'a'")]) (ns := [x']) (Or.inl fn_self) rfl (by decide) rfl fn_self ⟨rfl, by decide, rfl⟩ rfl,
    ⟨fun _ => inOrder_of (by decide +kernel), fun a b h hh => by
      rcases expect_vals h rfl rfl with ⟨rfl, rfl⟩ | ⟨rfl, rfl⟩
      · exact not_call_atom hh.2
      · exact not_call_atom hh.1⟩
example : Meets (cs! "expect_length") (oneSide (cs! "length")) afterY (clL (cs! "expect_equal") (a2 (num (cs! "1")) (clL (cs! "length") xL))) := by
  meets .expect_length (as := [num (cs! "1"), cl (cs! "length") x']) (ns := [x']) (Or.inl fn_self) rfl (by decide) (Or.inr ⟨rfl, rfl⟩) fn_self ⟨rfl, by decide, rfl⟩,
    ⟨fun _ => inOrder_of (by decide +kernel), fun a b h hh => by
      rcases expect_vals h rfl rfl with ⟨rfl, rfl⟩ | ⟨rfl, rfl⟩
      · exact not_call_atom hh.1
      · exact not_call_atom hh.2⟩
example : Meets (cs! "expect_type") (oneSide (cs! "typeof")) afterY (clL (cs! "expect_equal") (a2 (clL (cs! "typeof") xL) (str (cs! "'a'")))) := by
  meets .expect_type (as := [cl (cs! "typeof") x', str (cs! "'a'")]) (ns := [x']) (Or.inl fn_self) rfl (by decide) (Or.inl ⟨rfl, rfl⟩) fn_self ⟨rfl, by decide, rfl⟩,
    ⟨fun _ => inOrder_of (by decide +kernel), fun a b h hh => by
      rcases expect_vals h rfl rfl with ⟨rfl, rfl⟩ | ⟨rfl, rfl⟩
      · exact not_call_atom hh.2
      · exact not_call_atom hh.1⟩
example : Meets (cs! "expect_s3_class") s3Class afterY (clL (cs! "expect_equal") (a2 (clL (cs! "class") xL) (str (cs! "'lm'")))) := by
  meets .expect_s3_class (as := [cl (cs! "class") x', str (cs! "'lm'")]) (ns := [x']) (Or.inl fn_self) rfl (by decide) (Or.inl ⟨rfl, rfl⟩) fn_self ⟨_, rfl⟩ ⟨rfl, by decide, rfl⟩,
    ⟨fun _ => inOrder_of (by decide +kernel), fun a s h => by
      rcases expect_vals h rfl rfl with ⟨_, h2⟩ | ⟨_, h2⟩
      · cases h2; decide +kernel
      · cases h2⟩
example : Meets (cs! "expect_match") matchOrdered afterY (clL (cs! "expect_true") (clL (cs! "grepl") (a3 (str (cs! "'a'")) xL (arg (cs! "fixed") yes)))) := by
  meets .expect_match (b := true) (as := [cl (cs! "grepl") (a3 (str (cs! "'a'")) x' (arg (cs! "fixed") yes))]) (ns := [str (cs! "'a'"), x', arg (cs! "fixed") yes]) fn_self ⟨rfl, by decide, rfl⟩
    fn_self rfl rfl rfl rfl (by decide),
    ⟨rfl, fun a ha v hv => by
      simp [argsOf, clL, items, argList] at ha; subst ha; simp [argValue] at hv; subst hv; exact inOrder_of (by decide +kernel)⟩
example : Meets (cs! "equals_na") (notBoth NaValue) afterY (op x' .ne (.atom nl .na (cs! "NA"))) := by
  meets .equals_na (l := x') (r := .atom .none .na (cs! "NA")) (x := x') (s := .atom .none .na (cs! "NA")) (Or.inl ⟨rfl, rfl⟩) ⟨cs! "NA", by decide, text_na⟩ (Or.inr (Or.inl rfl)),
    (by intro l g o r h hh; cases h; obtain ⟨t, ht, k, h1, h2⟩ := hh.1; cases h1; revert ht; decide)
example : Meets (cs! "equals_null") (notBoth (Const .null)) afterY (op x' .eq2 (.atom nl .null (cs! "NULL"))) := by
  meets .equals_null (l := x') (r := null) (x := x') (s := null) (Or.inl ⟨rfl, rfl⟩) ⟨_, rfl⟩ (Or.inl rfl), (by intro l g o r h hh; cases h; obtain ⟨t, h1⟩ := hh.1; cases h1)
example : Meets (cs! "equals_nan") (notBoth (Const .nan)) afterY (op x' .eq2 (.atom nl .nan (cs! "NaN"))) := by
  meets .equals_nan (l := x') (r := .atom .none .nan (cs! "NaN")) (x := x') (s := .atom .none .nan (cs! "NaN")) (Or.inl ⟨rfl, rfl⟩) ⟨_, rfl⟩ (Or.inl rfl),
    (by intro l g o r h hh; cases h; obtain ⟨t, h1⟩ := hh.1; cases h1)
example : Meets (cs! "is_numeric") flatSides afterY (op (cl (cs! "is.numeric") x') .or2 (.call (.atom nl .id (cs! "is.integer")) .none .par x' .none)) := by
  meets .is_numeric (f := nm (cs! "is.numeric")) (g := nm (cs! "is.integer")) (as := [x']) (Or.inl ⟨text_id, text_id⟩), (by intro l g o r h; cases h; unfold flat; decide +kernel)
example : Meets (cs! "redundant_equals") always afterY (op x' .eq2 (.atom nl .false (cs! "FALSE"))) := by
  meets .redundant_equals (l := x') (r := no) (x := x') (c := no) (b := false) (Or.inl ⟨rfl, rfl⟩) ⟨_, rfl⟩ (Or.inl rfl), trivial
example : Meets (cs! "sort") flatSort afterY (.call x' .none .brk (.call (.atom nl .id (cs! "order")) .none .par (a2 xL (arg (cs! "decreasing") yes)) nl) nl) := by
  meets .sort (x := x') (g := nm (cs! "order")) (as := [x', arg (cs! "decreasing") yes]) (opts := [arg (cs! "decreasing") yes]) fn_self (by decide) rfl (List.Perm.refl _),
    (by intro x g v g2 h; cases h; unfold flat; decide +kernel)
example : Meets (cs! "string_boundary") flatCall afterY (op (clL (cs! "substr") (a3 xL (num (cs! "1")) (num (cs! "2")))) .eq2 (str (cs! "\"ab\""))) := by
  meets .string_start (f := nm (cs! "substr")) (x := x') (one := num (cs! "1")) (stop := num (cs! "2")) (s := str (cs! "\"ab\"")) (Or.inl fn_self) rfl
      ⟨⟨(.double, cs! "1"), by decide, rfl⟩, cs! "ab", rfl, by decide, text_num⟩ (Or.inl ⟨rfl, rfl⟩) (Or.inl rfl),
    ⟨(by intro l g o r h hh; cases h; obtain ⟨_, f, args, h1⟩ := hh; cases h1), (by intro l g o r h; cases h; unfold flat; decide +kernel)⟩
example : Meets (cs! "numeric_leading_zero") always afterY (.atom nl .double (cs! ".5")) := by meets .numeric_leading_zero (Or.inl rfl), trivial
example : Meets (cs! "true_false_symbol") plainUse afterY (.atom nl .id (cs! "T")) := by
  meets .true_symbol, (by intro f fs h; cases h; simp)
example : Meets (cs! "repeat") always [stmt1] (.whileE .none .none (.atom nl .true (cs! "TRUE")) nl (br xL)) := by meets .repeat (b := br x') ⟨_, rfl⟩ (Or.inl rfl), trivial
example : Meets (cs! "coalesce") flatNull afterY (.ifElse .none .none (clL (cs! "is.null") xL) .none (br (.atom nl .id (cs! "z"))) .none (.braces .none (.scons xL [] .snil) nl)) := by
  meets .coalesce (f := nm (cs! "is.null")) (a := x') (x := x') fn_self rfl rfl (Or.inl rfl) (Or.inr rfl),
    (by
      intro g g2 c g3 t g4 e h
      cases h
      refine ⟨fun a ha => ?_, Or.inr ⟨_, _, _, _, rfl, by unfold flat; decide +kernel⟩⟩
      simp [asked, argsOf, clL, items, argList, xL] at ha
      subst ha
      exact ⟨by unfold flat; decide +kernel, nofun⟩)
example : Meets (cs! "unnecessary_nesting") always [stmt1] (.ifE .none .none x' nl (.braces .none (.scons (.ifE nl .none (op x' .gt x') .none x') [] .snil) nl)) := by
  meets .unnecessary_nesting (a := x') (b := op x' .gt x') (t := x'), trivial
example : Meets (cs! "sprintf") notPiped afterY (clL (cs! "sprintf") (.atom nl .str (cs! "\"100%% of it\""))) := by
  meets .sprintf (f := nm (cs! "sprintf")) (as := [str (cs! "\"100%% of it\"")]) (ps := ((cs! "\"100").map .char ++ .percent :: (cs! " of it\"").map .char)) fn_self ⟨rfl, by decide, rfl⟩
    (by simp [Ok]) rfl (by
      intro a c b h
      have : '\\' ∈ render ((cs! "\"100").map .char ++ .percent :: (cs! " of it\"").map .char) := by rw [h]; simp
      exact absurd this (by decide)), rfl

end Jarl

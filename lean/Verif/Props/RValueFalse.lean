import Verif.Props.RLawsFalse
import Verif.Props.RValueMain
/-!
# C79: what the conditions are for

Without them the rules change what the code computes: for each, a program, and what its variables are.
-/
namespace Jarl
open Spec

/-- The variable `x` has this value; nothing else is known. -/
def withX (v : Value) : Env where
  other e := match e with
    | .atom _ .id s => if s = cs! "x" then .val v else .unknown
    | _ => .unknown
  collate _ _ := .eq
  number _ := []
  regex _ _ := false
  draw _ _ := none

theorem unkept {r : Zip → Option Edit} {cond : Zip → Prop} {dom : Env → Node → Prop} (z : Zip) (new : Node) (E : Env) (v : Value) (w : Res)
    (h : (match r z with
      | some ed => isStmts z.prog && wf .top z.prog && !innerComments (toks ed.z.e) && !piped ed.z.fs && placedB ed new && decide (ed.z.e = z.e)
      | none => false) = true) (hc : ∀ z' : Zip, z'.e = z.e → cond z') (hd : dom E (core z.e))
    (h1 : eval E (core z.e) = .val v) (h2 : eval E (core new) = w) (hw : w ≠ .val v) : ¬ KeepsValue r cond dom := by
  intro hl
  generalize hr : r z = o at h
  match o with
  | none => cases h
  | some ed =>
    simp only [Bool.and_eq_true, decide_eq_true_eq, Bool.not_eq_true'] at h
    obtain ⟨⟨⟨⟨⟨a, b⟩, c⟩, d⟩, e⟩, f⟩ := h
    have := hl _ _ z ed new ⟨a, wf_WF b, rfl⟩ rfl hr c d (hc _ f) (placed_of e) E v (f ▸ hd) (by rw [f]; exact h1)
    exact hw (h2.symm.trans this)

/-- The same the other way round: what the rule leaves as it is. -/
theorem keepsHere {r : Zip → Option Edit} {cond : Zip → Prop} {dom : Env → Node → Prop} (h : KeepsValue r cond dom) (z : Zip) (new : Node) (E : Env) (v : Value)
    (h0 : (match r z with
      | some ed => isStmts z.prog && wf .top z.prog && !innerComments (toks ed.z.e) && !piped ed.z.fs && placedB ed new && decide (ed.z.e = z.e)
      | none => false) = true) (hc : ∀ z' : Zip, z'.e = z.e → cond z') (hd : dom E (core z.e))
    (h1 : eval E (core z.e) = .val v) : eval E (core new) = .val v := by
  generalize hr : r z = o at h0
  match o with
  | none => cases h0
  | some ed =>
    simp only [Bool.and_eq_true, decide_eq_true_eq, Bool.not_eq_true'] at h0
    obtain ⟨⟨⟨⟨⟨a, b⟩, c⟩, d⟩, e⟩, f⟩ := h0
    exact h _ _ z ed new ⟨a, wf_WF b, rfl⟩ rfl hr c d (hc _ f) (placed_of e) E v (f ▸ hd) (by rw [f]; exact h1)

/-- Conditions on the code. -/
macro "code" : tactic => `(tactic| (intro ⟨fs, e⟩ he; simp only at he; subst he; cond))

/-- Two values are different. -/
macro "differ" : tactic => `(tactic| (intro h; cases h))

/-- Heads of calls are names. -/
macro "names" : tactic => `(tactic| (simp [own, ownHead, subs, cl, a2, a3, arg, str, x', op, neg, nm, num, core, items, argList, valueOf]))

def dbls (l : List Dbl) : Value := .dbl (plain l)

/-- The value of `x == TRUE` for `x = 2` is `FALSE`; what is left is `x`, 2. -/
theorem C79_false_redundant_equals : ¬ KeepsValue redundantEquals always (fun _ _ => True) :=
  unkept ⟨[stmt1], op x' .eq2 yes⟩ x' (withX (dbls [.num 2])) _ _ (by decide +kernel) (fun _ _ => trivial) trivial rfl rfl (by differ)

/-- `ifelse(x, TRUE, FALSE)` for `x = 2` is `TRUE`; what is left is `x`. -/
theorem C79_false_redundant_ifelse : ¬ KeepsValue redundantIfelse always (fun _ e => callTo [cs! "ifelse"] e) :=
  unkept ⟨[stmt1], cl (cs! "ifelse") (a3 x' yes no)⟩ x' (withX (dbls [.num 2])) _ _ (by decide +kernel) (fun _ _ => trivial) ⟨_, List.mem_singleton.mpr rfl, rfl⟩ rfl rfl (by differ)

/-- A factor: `is.integer` says yes to its codes, `is.numeric` says no. -/
theorem C79_false_is_numeric : ¬ KeepsValue isNumeric always (fun _ e => own 1 e) :=
  unkept ⟨[stmt1], op (cl (cs! "is.numeric") x') .or2 (cl (cs! "is.integer") x')⟩ (cl (cs! "is.numeric") x') (withX (.factor [cs! "a"] [some 1])) _ _
    (by decide +kernel) (fun _ _ => trivial) (by names) rfl rfl (by differ)

/-- `NA %in% NaN` is `FALSE`; `anyNA(NaN)` is `TRUE`. -/
theorem C79_false_any_is_na : ¬ KeepsValue anyIsNa2 always (fun _ e => ∃ n x, e = special n (cs! "in") x) :=
  unkept ⟨[stmt1], op (.atom .none .na (cs! "NA")) (.special (cs! "in")) x'⟩ (cl (cs! "anyNA") x') (withX (dbls [.nan])) _ _
    (by decide +kernel) (fun _ _ => trivial) ⟨_, _, rfl⟩ rfl rfl (by differ)

/-- `any` of another package is replaced as well. -/
theorem C79_false_any_is_na_package : ¬ KeepsValue anyIsNa onlyNested (fun _ _ => True) :=
  unkept ⟨[stmt1], .call (.atom .none (.ns (cs! "foo") false) (cs! "any")) .none .par (cl (cs! "is.na") x') .none⟩ (cl (cs! "anyNA") x')
    { withX (dbls [.na]) with other := fun e => match e with | .call .. => .val .null | e => (withX (dbls [.na])).other e } _ _
    (by decide +kernel) (by code) trivial rfl rfl (by differ)

/-- `NaN %in% NA` is `FALSE`; `is.na(NaN)` is `TRUE`. -/
theorem C79_false_equals_na : ¬ KeepsValue equalsNa always (fun _ e => ∃ l s, e = special l (cs! "in") (.atom .none .na s)) :=
  unkept ⟨[stmt1], op x' (.special (cs! "in")) (.atom .none .na (cs! "NA"))⟩ (cl (cs! "is.na") x') (withX (dbls [.nan])) _ _
    (by decide +kernel) (fun _ _ => trivial) ⟨_, _, rfl⟩ rfl rfl (by differ)

/-- `x %in% NA` has no names; `is.na(x)` has those of `x`. -/
theorem C79_false_equals_na_names : ¬ KeepsValue equalsNa always (fun E e => (∃ l s, e = special l (cs! "in") (.atom .none .na s)) ∧ noNaN E e) :=
  unkept ⟨[stmt1], op x' (.special (cs! "in")) (.atom .none .na (cs! "NA"))⟩ (cl (cs! "is.na") x') (withX (.str [(cs! "n", some (cs! "a"))])) _ _
    (by decide +kernel) (fun _ _ => trivial) ⟨⟨_, _, rfl⟩, by
      intro x hx d hv
      simp only [subs, op, core, List.mem_cons, List.not_mem_nil, or_false] at hx
      rcases hx with rfl | rfl <;> cases hv⟩ rfl rfl (by differ)

/-- A tibble has three classes: `class(x) == "data.frame"` is three values, `inherits(x, "data.frame")` is one. -/
theorem C79_false_class_equals : ¬ KeepsValue classEquals sidesOne (fun _ e => own 1 e) :=
  unkept ⟨[.ifC .none .none .none (br x'), stmt1], op (cl (cs! "class") x') .eq2 (str (cs! "'data.frame'"))⟩ (cl (cs! "inherits") (a2 x' (str (cs! "'data.frame'"))))
    (withX (.object [cs! "tbl_df", cs! "tbl", cs! "data.frame"] .null)) _ _ (by decide +kernel) (by intro ⟨fs, e⟩ he; simp only at he; subst he; intro l g o r h; cases h; cond) (by names) rfl rfl (by differ)

/-- `identical(class(x), "data.frame")` is `FALSE` for a tibble, `inherits(x, "data.frame")` is `TRUE`. -/
theorem C79_false_class_identical : ¬ KeepsValue classIdentical onlyTwo (fun _ e => own 1 e) :=
  unkept ⟨[stmt1], cl (cs! "identical") (a2 (cl (cs! "class") x') (str (cs! "'data.frame'")))⟩ (cl (cs! "inherits") (a2 x' (str (cs! "'data.frame'"))))
    (withX (.object [cs! "tbl_df", cs! "tbl", cs! "data.frame"] .null)) _ _ (by decide +kernel) (by code) (by names) rfl rfl (by differ)

/-- `sapply(list(), length)` is `list()`, `lengths(list())` is `integer(0)`. -/
theorem C79_false_lengths : ¬ KeepsValue lengths onlyFun (fun _ e => callTo [cs! "sapply", cs! "vapply"] e) :=
  unkept ⟨[stmt1], cl (cs! "sapply") (a2 x' (nm (cs! "length")))⟩ (cl (cs! "lengths") x') (withX (.list [])) _ _
    (by decide +kernel) (by intro ⟨fs, e⟩ he; simp only at he; subst he; intro f g args g2 h; cases h; cond) ⟨_, List.mem_cons_self, rfl⟩ rfl rfl (by differ)

/-- `sapply(c("a"), length)` has names, `lengths(c("a"))` has not. -/
theorem C79_false_lengths_names : ¬ KeepsValue lengths onlyFun (fun E e => callTo [cs! "sapply", cs! "vapply"] e ∧ ∀ x ∈ subs e, eval E x ≠ .val (.list [])) :=
  unkept ⟨[stmt1], cl (cs! "sapply") (a2 x' (nm (cs! "length")))⟩ (cl (cs! "lengths") x') (withX (.str [([], some (cs! "a"))])) _ _
    (by decide +kernel) (by intro ⟨fs, e⟩ he; simp only at he; subst he; intro f g args g2 h; cases h; cond) ⟨⟨_, List.mem_cons_self, rfl⟩, by
      intro x hx hv
      simp [subs, cl, a2, core, items, argList, valueOf, x', nm] at hx
      rcases hx with rfl | rfl <;> cases hv⟩ rfl rfl (by differ)

/-- `1:length(x)` for an empty `x` is 1 and 0; `seq_along(x)` has no elements. -/
theorem C79_false_seq : ¬ KeepsValue seq always (fun _ e => own 1 e) :=
  unkept ⟨[stmt1], op (num (cs! "1")) .colon (cl (cs! "length") x')⟩ (cl (cs! "seq_along") x') (withX .null) _ _ (by decide +kernel) (fun _ _ => trivial) (by names) rfl rfl (by differ)

/-- `1:nrow(x)` and `1:length(x)` aside, an argument with its name: `seq_along` has no argument called `x`. -/
theorem C79_false_seq_names : ¬ KeepsValue seq always (fun E e => own 1 e ∧ ∀ x ∈ subs e, ∀ w m, eval E x = .val w → wholeOf w = some m → 1 ≤ m) :=
  unkept ⟨[stmt1], op (num (cs! "1")) .colon (cl (cs! "length") (arg (cs! "x") x'))⟩ (cl (cs! "seq_along") (arg (cs! "x") x')) (withX (dbls [.num 3])) _ _
    (by decide +kernel) (fun _ _ => trivial) ⟨by names, by
      intro x hx w m hv hm
      simp only [subs, op, core, cl, num, List.mem_cons, List.not_mem_nil, or_false] at hx
      rcases hx with rfl | rfl <;> cases hv <;> cases hm <;> decide⟩ rfl rfl (by differ)

/-- `seq(length(x))` for an empty `x` is 1 and 0; `seq_along(x)` has no elements. -/
theorem C79_false_seq2 : ¬ KeepsValue seq2 always (fun _ e => own 1 e) :=
  unkept ⟨[stmt1], cl (cs! "seq") (cl (cs! "length") x')⟩ (cl (cs! "seq_along") x') (withX .null) _ _ (by decide +kernel) (fun _ _ => trivial) (by names) rfl rfl (by differ)

/-- `x[order(x)]` keeps what is missing, `sort(x)` does not. -/
theorem C79_false_sort : ¬ KeepsValue sortRule sortOptions (fun _ e => own 1 e) :=
  unkept ⟨[stmt1], .call x' .none .brk (cl (cs! "order") x') .none⟩ (cl (cs! "sort") x') (withX (dbls [.na])) (dbls [.na]) (.val (dbls []))
    (by decide +kernel) (by intro ⟨fs, e⟩ he; simp only at he; subst he; intro f g b g2 g' oargs g2' h; cases h; decide) (by names)
    (by
      have h : orderV (withX (dbls [.na])) (dbls [.na]) = .val (ints [1]) := by simp [orderV, numbers, orderOf, dbls, plain, elems, Dbl.isNa]
      show (orderV (withX (dbls [.na])) (dbls [.na])).bind (indexV (dbls [.na])) = _
      rw [h]; rfl)
    (by
      show sortV (withX (dbls [.na])) (dbls [.na]) = _
      simp [sortV, sortedBy, dbls, plain, Dbl.isNa]) (by differ)

/-- `sample(1:0, 1)` draws from 1 and 0; `sample.int(0, 1)` is an error. -/
theorem C79_false_sample_int : ¬ KeepsValue sampleInt firstPlain (fun E e => own 0 e ∧ (∀ a ∈ argsOf e, argName a = none ∨ argName a = some (cs! "size")) ∧
    ∀ m s l, E.draw m s = some l → ∀ i ∈ l, 1 ≤ i ∧ (i : Int) ≤ m) :=
  unkept ⟨[stmt1], cl (cs! "sample") (a2 (op (num (cs! "1")) .colon (num (cs! "0"))) (num (cs! "1")))⟩ (cl (cs! "sample.int") (a2 (num (cs! "0")) (num (cs! "1"))))
    { withX .null with draw := fun m _ => if 1 ≤ m then some [1] else none } _ _ (by decide +kernel) (by intro ⟨fs, e⟩ he; simp only at he; subst he; exact ⟨_, _, rfl, rfl, nofun, by simp [num, argName, argList]⟩)
    ⟨by names, by simp [argsOf, cl, a2, op, num, core, items, argList, argName], by
      intro m s l h i hi
      simp only at h
      split at h
      · cases h; simp only [List.mem_singleton] at hi; subst hi; exact ⟨Nat.le_refl _, by assumption⟩
      · cases h⟩ rfl rfl (by differ)

/-- `substr(x, 1, 1) == "a"` has the names of `x`, `startsWith(x, "a")` has none. -/
theorem C79_false_string_boundary : ¬ KeepsValue stringBoundary boundaryPlaces (fun _ e => own 4 e ∧ (∃ body, .atom .none .str (['"'] ++ body ++ ['"']) ∈ subs e ∧ '\\' ∉ body) ∧
    ∀ l ∈ subs e, ¬ callTo [cs! "substring"] l) :=
  unkept ⟨[stmt1], op (cl (cs! "substr") (a3 x' (num (cs! "1")) (num (cs! "2")))) .eq2 (str (cs! "\"ab\""))⟩ (cl (cs! "startsWith") (a2 x' (str (cs! "\"ab\""))))
    (withX (.str [(cs! "n", some (cs! "abc"))])) _ _ (by decide +kernel)
    (by
      intro ⟨fs, e⟩ he; simp only at he; subst he
      intro l g o r h c s hcs ⟨f, g1, args, g2, hc⟩
      cases h
      rcases hcs with ⟨rfl, rfl⟩ | ⟨rfl, rfl⟩
      · exact ⟨x', num (cs! "1"), num (cs! "2"), rfl, by cond, Or.inl ⟨⟨(.double, cs! "1"), by decide, rfl⟩, cs! "ab", rfl, by decide, _, rfl, nofun⟩⟩
      · cases hc)
    ⟨by names, ⟨cs! "ab", by simp [subs, op, core, str], by decide⟩, by
      intro l hl hc
      simp only [subs, op, core, List.mem_cons, List.not_mem_nil, or_false] at hl
      rcases hl with rfl | rfl
      · obtain ⟨s, hs, h⟩ := hc
        cases List.mem_singleton.mp hs
        exact absurd h (by decide)
      · cases hc⟩ rfl rfl (by differ)

/-- `if ("TRUE") …` is allowed, `"TRUE" && …` is an error. -/
theorem C79_false_unnecessary_nesting : ¬ KeepsValue unnecessaryNesting always (fun _ _ => True) :=
  unkept ⟨[stmt1], .ifE .none .none x' .none (br (.ifE .none .none yes .none no))⟩
    (.ifE .none .none (op x' .and2 (.paren .none yes .none)) .none no) (withX (.str (plain [some (cs! "TRUE")]))) _ _ (by decide +kernel) (fun _ _ => trivial) trivial rfl rfl (by differ)

/-- `T` is a variable: it can be anything. -/
theorem C79_false_true_false_symbol : ¬ KeepsValue trueFalseSymbol always (fun _ _ => True) :=
  unkept ⟨[stmt1], nm (cs! "T")⟩ yes { withX .null with other := fun _ => .val .null } _ _ (by decide +kernel) (fun _ _ => trivial) trivial rfl rfl (by differ)

/-! ## Where the conditions are met -/

/-- `any(is.na(x))` for `x` a missing value with a name and a number. -/
example : eval (withX (.dbl [(cs! "n", .na), ([], .num 3)])) (core (cl (cs! "anyNA") x')) = .val (one (some true)) :=
  keepsHere keeps_any_is_na ⟨[stmt1], cl (cs! "any") (cl (cs! "is.na") x')⟩ _ _ _ (by decide +kernel) (by code) ⟨by names, _, List.mem_singleton.mpr rfl, rfl⟩ rfl

/-- `!(x > 2)` for some numbers. -/
example : eval (withX (dbls [.na, .nan, .num 3, .num 2, .inf true])) (core (op x' .le (num (cs! "2")))) = .val (.lgl (plain [none, none, some false, some true, some true])) :=
  keepsHere keeps_comparison_negation ⟨[stmt1], neg (.paren .none (op x' .gt (num (cs! "2"))) .none)⟩ _ _ _ (by decide +kernel) (fun _ _ => trivial) trivial rfl

/-- `1:length(x)` for two elements. -/
example : eval (withX (.str (plain [none, some (cs! "a")]))) (core (cl (cs! "seq_along") x')) = .val (ints [1, 2]) :=
  keepsHere keeps_seq ⟨[stmt1], op (num (cs! "1")) .colon (cl (cs! "length") x')⟩ _ _ _ (by decide +kernel) (fun _ _ => trivial) ⟨by names, by
    intro x hx
    simp only [subs, op, core, cl, num, List.mem_cons, List.not_mem_nil, or_false] at hx
    rcases hx with rfl | rfl
    · refine ⟨by simp [noNames, argsOf], fun w m hv hm => ?_⟩
      cases hv; cases hm; decide
    · refine ⟨by simp [noNames, argsOf, items, argList, x', nm, core, argName], fun w m hv hm => ?_⟩
      cases hv; cases hm; decide⟩ rfl

/-- `which(grepl("a", x))` for some strings. -/
example : eval { withX (.str (plain [none, some (cs! "a"), some (cs! "b"), some (cs! "ba")])) with regex := fun p s => contains p s } (core (cl (cs! "grep") (a2 (str (cs! "'a'")) x'))) = .val (ints [2, 4]) :=
  keepsHere keeps_which_grepl ⟨[stmt1], cl (cs! "which") (cl (cs! "grepl") (a2 (str (cs! "'a'")) x'))⟩ _ _ _ (by decide +kernel) (by code) (by names) rfl

/-- `substr(x, 1, 2) == "ab"` for some strings. -/
example : eval (withX (.str (plain [some (cs! "abc"), none, some (cs! "a")]))) (core (cl (cs! "startsWith") (a2 x' (str (cs! "\"ab\""))))) = .val (.lgl (plain [some true, none, some false])) :=
  keepsHere keeps_string_boundary ⟨[stmt1], op (cl (cs! "substr") (a3 x' (num (cs! "1")) (num (cs! "2")))) .eq2 (str (cs! "\"ab\""))⟩ _ _ _ (by decide +kernel)
    (by
      intro ⟨fs, e⟩ he; simp only at he; subst he
      intro l g o r h c s hcs ⟨f, g1, args, g2, hc⟩
      cases h
      rcases hcs with ⟨rfl, rfl⟩ | ⟨rfl, rfl⟩
      · exact ⟨x', num (cs! "1"), num (cs! "2"), rfl, by cond, Or.inl ⟨⟨(.double, cs! "1"), by decide, rfl⟩, cs! "ab", rfl, by decide, _, rfl, nofun⟩⟩
      · cases hc)
    ⟨by names, ⟨cs! "ab", by simp [subs, op, core, str], by decide⟩, by
      intro l hl
      simp only [subs, op, core, cl, str, List.mem_cons, List.not_mem_nil, or_false] at hl
      rcases hl with rfl | rfl
      · refine ⟨fun hc => ?_, fun x hx v hv => ?_⟩
        · obtain ⟨s, hs, h⟩ := hc
          cases List.mem_singleton.mp hs
          exact absurd h (by decide)
        · simp [subs, items, argList, valueOf, x', nm, num, a3, core] at hx
          rcases hx with rfl | rfl | rfl <;> cases hv
          decide
      · exact ⟨(fun hc => by cases hc), fun x hx => by cases hx⟩⟩ rfl

end Jarl

import Verif.Props.RValue
/-!
# C79: fixes keep what the code computes (operators)
-/
namespace Jarl
open Spec

theorem filterMap_range (v : List α) (g : Nat → Option β) (k : α → β) (h : ∀ i (hi : i < v.length), g i = some (k v[i])) : (List.range v.length).filterMap g = v.map k := by
  have e : (List.range v.length).map g = v.map (fun a => some (k a)) := by
    apply List.ext_getElem
    · simp
    · intro i h1 h2
      simp only [List.length_map, List.length_range] at h1
      simp [h i h1]
  have : (List.range v.length).filterMap g = ((List.range v.length).map g).filterMap id := by rw [List.filterMap_map]; rfl
  rw [this, e, List.filterMap_map]
  have : (id ∘ fun a => some (k a)) = fun a => some (k a) := rfl
  rw [this]
  exact congrFun List.filterMap_eq_map' v

theorem noNames_at {v : Vec α} (h : hasNames v = false) {i : Nat} (hi : i < v.length) : v[i].1 = [] := by
  unfold hasNames at h
  rw [List.any_eq_false] at h
  have := h v[i] (List.getElem_mem hi)
  simpa using this

theorem recycle_right {f : α → β → γ} {v : Vec α} {c : β} : recycled f v (plain [c]) = each (fun a => f a c) v := by
  unfold recycled
  cases hv : v with
  | nil => rfl
  | cons x xs =>
    rw [← hv]
    have hl : 1 ≤ v.length := by rw [hv]; simp
    have hn : max v.length (plain [c]).length = v.length := by simp [plain]; omega
    have he : v.isEmpty = false := by rw [hv]; rfl
    simp only [he, plain, List.map_cons, List.map_nil, List.isEmpty_cons, Bool.or_self, Bool.false_eq_true, if_false]
    simp only [plain, List.map_cons, List.map_nil] at hn
    rw [hn]
    unfold each
    refine filterMap_range v _ _ fun i hi => ?_
    have h1 : i % v.length = i := Nat.mod_eq_of_lt hi
    simp only [h1, List.getElem?_eq_getElem hi, Option.bind_some, List.length_cons, List.length_nil, Nat.zero_add, Nat.mod_one, List.getElem?_cons_zero, Option.map_some, Option.getD_some, Option.some.injEq]
    congr 1
    cases hh : hasNames v with
    | true => simp
    | false => simp [hasNames, noNames_at hh hi]

theorem recycle_left {f : α → β → γ} {w : Vec β} {c : α} : recycled f (plain [c]) w = each (fun b => f c b) w := by
  unfold recycled
  cases hv : w with
  | nil => rfl
  | cons x xs =>
    rw [← hv]
    have hl : 1 ≤ w.length := by rw [hv]; simp
    have hn : max (plain [c]).length w.length = w.length := by simp [plain]; omega
    have he : w.isEmpty = false := by rw [hv]; rfl
    simp only [he, plain, List.map_cons, List.map_nil, List.isEmpty_cons, Bool.or_self, Bool.false_eq_true, if_false]
    simp only [plain, List.map_cons, List.map_nil] at hn
    rw [hn]
    unfold each
    refine filterMap_range w _ _ fun i hi => ?_
    have h1 : i % w.length = i := Nat.mod_eq_of_lt hi
    simp only [h1, List.getElem?_eq_getElem hi, Option.bind_some, List.length_cons, List.length_nil, Nat.zero_add, Nat.mod_one, List.getElem?_cons_zero, Option.map_some, Option.getD_some, Option.some.injEq]
    congr 1
    have h2 : hasNames [(([] : Str), c)] = false := rfl
    simp only [h2, Bool.false_and, Bool.false_eq_true, if_false]
    cases hh : hasNames w with
    | true => simp
    | false => simp [noNames_at hh hi]

theorem each_each {f : α → β} {g : β → γ} {v : Vec α} : each g (each f v) = each (fun a => g (f a)) v := by simp [each, Function.comp_def]

theorem each_id {v : Vec α} : each (fun a => a) v = v := by simp [each]

theorem each_congr {f g : α → β} {v : Vec α} (h : ∀ x ∈ v, f x.2 = g x.2) : each f v = each g v := List.map_congr_left fun x hx => by rw [h x hx]

theorem each_recycle {f : α → β → γ} {g : γ → δ} {v : Vec α} {w : Vec β} : each g (recycled f v w) = recycled (fun a b => g (f a b)) v w := by
  unfold recycled each
  split
  · rfl
  · simp only [List.map_filterMap]
    congr 1
    funext i
    cases v[i % v.length]? <;> simp [Function.comp_def]

/-! ### comparison_negation -/

theorem compare3_opposite {o o' : Op} (h : Opposite o o') (lt eq : Bool) : not3 (compare3 o lt eq) = compare3 o' lt eq := by
  cases h <;> cases lt <;> cases eq <;> rfl

theorem compareNum_opposite {o o' : Op} (h : Opposite o o') (a b : Dbl) : not3 (compareNum o a b) = compareNum o' a b := by
  unfold compareNum
  cases a.key <;> cases b.key <;> first | rfl | exact compare3_opposite h _ _

theorem compareStr_opposite {E : Env} {o o' : Op} (h : Opposite o o') (a b : Option Str) : not3 (compareStr E o a b) = compareStr E o' a b := by
  unfold compareStr
  cases a <;> cases b <;> try rfl
  cases h <;> simp [compare3, not3]

theorem opposite_compare {o o' : Op} (h : Opposite o o') : (∀ E w l r, binV E w o l r = l.bind fun a => r.bind fun b => compareV E o a b) ∧
    ∀ E w l r, binV E w o' l r = l.bind fun a => r.bind fun b => compareV E o' a b := by
  cases h <;> exact ⟨fun _ _ _ _ => rfl, fun _ _ _ _ => rfl⟩

theorem value_comparison_negation {E : Env} {l r : Node} {o o' : Op} (ho : Opposite o o') {v : Value} (h : eval E (.un .none .bang (.bin l .none o r)) = .val v) :
    eval E (.bin l .none o' r) = .val v := by
  rw [eval_bang, eval_bin, (opposite_compare ho).1] at h
  rw [eval_bin, (opposite_compare ho).2]
  obtain ⟨x, h1, h2⟩ := bind_val h
  obtain ⟨a, h3, h4⟩ := bind_val h1
  obtain ⟨b, h5, h6⟩ := bind_val h4
  rw [h3, h5]
  show compareV E o' a b = .val v
  unfold compareV at h6 ⊢
  split at h6
  · rename_i hs
    rw [if_pos hs]
    split at h6
    · cases h6
      simp only [notV, logicals, each_recycle, compareStr_opposite ho] at h2
      exact h2
    · cases h6
  · rename_i hs
    rw [if_neg hs]
    split at h6
    · cases h6
      simp only [notV, logicals, each_recycle, compareNum_opposite ho] at h2
      exact h2
    · cases h6

/-! ### outer_negation -/

theorem any_not (l : List (Option Bool)) : any3 (l.map not3) = not3 (all3 l) := by
  have h1 : some true ∈ l.map not3 ↔ some false ∈ l := by
    rw [List.mem_map]
    constructor
    · rintro ⟨a, ha, e⟩
      rcases a with _ | _ | _ <;> first | exact ha | cases e
    · intro h; exact ⟨_, h, rfl⟩
  have h2 : none ∈ l.map not3 ↔ none ∈ l := by
    rw [List.mem_map]
    constructor
    · rintro ⟨a, ha, e⟩
      rcases a with _ | _ | _ <;> first | exact ha | cases e
    · intro h; exact ⟨_, h, rfl⟩
  unfold any3 all3
  simp only [h1, h2]
  split
  · rfl
  · split <;> rfl

theorem all_not (l : List (Option Bool)) : all3 (l.map not3) = not3 (any3 l) := by
  have h1 : some false ∈ l.map not3 ↔ some true ∈ l := by
    rw [List.mem_map]
    constructor
    · rintro ⟨a, ha, e⟩
      rcases a with _ | _ | _ <;> first | exact ha | cases e
    · intro h; exact ⟨_, h, rfl⟩
  have h2 : none ∈ l.map not3 ↔ none ∈ l := by
    rw [List.mem_map]
    constructor
    · rintro ⟨a, ha, e⟩
      rcases a with _ | _ | _ <;> first | exact ha | cases e
    · intro h; exact ⟨_, h, rfl⟩
  unfold any3 all3
  simp only [h1, h2]
  split
  · rfl
  · split <;> rfl

theorem rawArgs_bang {E : Env} {x : Node} : rawArgs E [.un .none .bang x] = [(none, (eval E x).bind notV)] := by
  rw [rawArgs_single (by simp), ← eval_bang (g := .none)]
  simp [evalBoth, eval]

theorem value_outer_negation {E : Env} {f x : Node} {s t : Str} (hst : (s = cs! "any" ∧ t = cs! "all") ∨ (s = cs! "all" ∧ t = cs! "any")) (hf : headName f = some s) {v : Value}
    (h : eval E (callOf f [.un .none .bang x]) = .val v) : eval E (.un .none .bang (fn t [x])) = .val v := by
  rw [eval_callOf hf, rawArgs_bang] at h
  rw [eval_bang, eval_fn]
  rcases hst with ⟨rfl, rfl⟩ | ⟨rfl, rfl⟩
  · obtain ⟨y, h1, h2⟩ := unary'_val (show unary' anyV [(none, (eval E x).bind notV)] = .val v from h)
    simp only [List.cons.injEq, Prod.mk.injEq, true_and, and_true] at h1
    obtain ⟨a, h3, h4⟩ := bind_val h1
    rw [rawArgs_one h3]
    show (allV a).bind notV = .val v
    unfold notV at h4
    unfold allV
    cases hl : logicals a with
    | none => rw [hl] at h4; cases h4
    | some l =>
      rw [hl] at h4
      cases h4
      simp only [anyV, logicals, elems_each, any_not] at h2
      exact h2
  · obtain ⟨y, h1, h2⟩ := unary'_val (show unary' allV [(none, (eval E x).bind notV)] = .val v from h)
    simp only [List.cons.injEq, Prod.mk.injEq, true_and, and_true] at h1
    obtain ⟨a, h3, h4⟩ := bind_val h1
    rw [rawArgs_one h3]
    show (anyV a).bind notV = .val v
    unfold notV at h4
    unfold anyV
    cases hl : logicals a with
    | none => rw [hl] at h4; cases h4
    | some l =>
      rw [hl] at h4
      cases h4
      simp only [allV, logicals, elems_each, all_not] at h2
      exact h2

/-! ### redundant_equals, redundant_ifelse -/

theorem eval_notIf {E : Env} {b : Bool} {x : Node} : eval E (notIf b x) = if b then (eval E x).bind notV else eval E x := by
  cases b
  · rfl
  · exact eval_bang

theorem equals_bool (o : Op) (ho : o = .eq2 ∨ o = .ne) (a : Option Bool) (b : Bool) :
    compareNum o (ofBool a) (ofBool (some b)) = (if (b ≠ (o = .eq2 : Bool)) then not3 a else a) ∧ compareNum o (ofBool (some b)) (ofBool a) = (if (b ≠ (o = .eq2 : Bool)) then not3 a else a) := by
  rcases ho with rfl | rfl <;> rcases a with _ | _ | _ <;> cases b <;> decide +kernel

theorem const_bool {E : Env} {b : Bool} {c : Node} (h : Const (if b then .true else .false) c) {v : Value} (hv : eval E c = .val v) : eval E c = .val (one (some b)) := by
  obtain ⟨s, rfl⟩ := h
  cases b <;> simp only [eval, evalBoth, atomV, if_true, Bool.false_eq_true, if_false] at hv ⊢ <;> split at hv <;> simp_all

theorem value_redundant_equals {E : Env} {l r x c : Node} {o : Op} {b : Bool} (hlr : (l = x ∧ r = c) ∨ (l = c ∧ r = x)) (hc : Const (if b then .true else .false) c)
    (ho : o = .eq2 ∨ o = .ne) {w : Vec (Option Bool)} (hx : eval E x = .val (.lgl w)) {v : Value} (h : eval E (.bin l .none o r) = .val v) :
    eval E (notIf (b ≠ (o = .eq2 : Bool)) x) = .val v := by
  have hb : ∀ l r, binV E (.bin l .none o r) o (eval E l) (eval E r) = (eval E l).bind fun a => (eval E r).bind fun b => compareV E o a b := by
    rcases ho with rfl | rfl <;> intro l r <;> rfl
  rw [eval_bin, hb] at h
  have goal : v = .lgl (each (fun a => if (b ≠ (o = .eq2 : Bool)) then not3 a else a) w) := by
    rcases hlr with ⟨rfl, rfl⟩ | ⟨rfl, rfl⟩
    · obtain ⟨_, _, hv⟩ := bind_val h
      obtain ⟨_, hv, _⟩ := bind_val hv
      rw [hx, const_bool hc hv] at h
      simp only [Res.bind, compareV, isStr, one, numbers, Bool.or_self, Bool.false_eq_true, if_false] at h
      have e : (each ofBool (plain [some b]) : Vec Dbl) = plain [ofBool (some b)] := rfl
      rw [e, recycle_right, each_each] at h
      cases h
      congr 1
      exact each_congr fun y _ => (equals_bool o ho y.2 b).1
    · obtain ⟨_, hv, _⟩ := bind_val h
      rw [hx, const_bool hc hv] at h
      simp only [Res.bind, compareV, isStr, one, numbers, Bool.or_self, Bool.false_eq_true, if_false] at h
      have e : (each ofBool (plain [some b]) : Vec Dbl) = plain [ofBool (some b)] := rfl
      rw [e, recycle_left, each_each] at h
      cases h
      congr 1
      exact each_congr fun y _ => (equals_bool o ho y.2 b).2
  rw [eval_notIf, hx, goal]
  generalize hd : decide (b ≠ decide (o = Op.eq2)) = d
  have hd' : (b ≠ decide (o = Op.eq2)) ↔ d = true := by rw [← hd, decide_eq_true_iff]
  cases d
  · simp only [Bool.false_eq_true, iff_false] at hd'
    simp only [if_neg hd', each_id, Bool.false_eq_true, if_false]
  · simp only [iff_true] at hd'
    simp only [if_pos hd', if_true, Res.bind, notV, logicals]

theorem withParams3 {params : List Str} {p1 p2 p3 : Str} (hp : params = [p1, p2, p3]) {f : List Value → Res} {E : Env} {as : List Node} {c t e : Node} (hl : as.length = 3)
    (h1 : matchArg params as p1 = some c) (h2 : matchArg params as p2 = some t) (h3 : matchArg params as p3 = some e) :
    withParams params f (evalArgs E as) = (eval E c).bind fun x => (eval E t).bind fun y => (eval E e).bind fun z => f [x, y, z] := by
  have hl' : (evalArgs E as).length = params.length := by simp [evalArgs, hl, hp]
  unfold withParams
  rw [if_pos hl', hp]
  rw [hp] at h1 h2 h3
  simp [collect, passed_matchArg h1, passed_matchArg h2, passed_matchArg h3]

theorem matchArg_hole {params : List Str} {x : Str} {e : Node} {as : List Node} (h : matchArg params as x = some e) : as ≠ [.hole] := by
  rintro rfl
  unfold matchArg at h
  simp only [List.find?_cons, nameOf, List.find?_nil, reduceCtorEq, decide_false] at h
  split at h
  · rename_i i _
    cases i <;> simp [valueOf] at h
  · cases h

theorem value_redundant_ifelse {E : Env} {f : Node} {as : List Node} {c t e : Node} {b : Bool} (hf : headName f = some (cs! "ifelse")) (hl : as.length = 3) (ha : ∀ a ∈ as, isArg a = true)
    (h1 : matchArg [cs! "test", cs! "yes", cs! "no"] as (cs! "test") = some c) (h2 : matchArg [cs! "test", cs! "yes", cs! "no"] as (cs! "yes") = some t)
    (h3 : matchArg [cs! "test", cs! "yes", cs! "no"] as (cs! "no") = some e) (ht : Const (if b then .false else .true) t) (he : Const (if b then .true else .false) e)
    (hx : b = true ∨ ∃ w, eval E c = .val (.lgl w)) {v : Value} (h : eval E (callOf f as) = .val v) : eval E (notIf b c) = .val v := by
  rw [eval_callOf hf, rawArgs_args ha (matchArg_hole h1)] at h
  replace h : withParams [cs! "test", cs! "yes", cs! "no"] ifelseV (evalArgs E as) = .val v := h
  rw [withParams3 rfl hl h1 h2 h3] at h
  obtain ⟨_, _, h'⟩ := bind_val h
  obtain ⟨_, ht', h'⟩ := bind_val h'
  obtain ⟨_, he', _⟩ := bind_val h'
  have et : eval E t = .val (one (some (!b))) := const_bool (by cases b <;> exact ht) ht'
  have ee : eval E e = .val (one (some b)) := const_bool he he'
  rw [et, ee] at h
  obtain ⟨x, hc, h⟩ := bind_val h
  replace h : ifelseV [x, .lgl [([], some (!b))], .lgl [([], some b)]] = .val v := h
  simp only [ifelseV] at h
  rw [eval_notIf, hc]
  cases hlx : logicals x with
  | none => rw [hlx] at h; cases h
  | some l =>
    rw [hlx] at h
    cases h
    cases b with
    | true =>
      simp only [if_true, Res.bind, notV, hlx]
      congr 2
      refine each_congr fun y _ => ?_
      rcases y.2 with _ | _ | _ <;> rfl
    | false =>
      rcases hx with hx | ⟨w, hx⟩
      · cases hx
      · rw [hc] at hx
        cases hx
        cases hlx
        simp only [Bool.false_eq_true, if_false, Res.val.injEq, Value.lgl.injEq]
        conv => lhs; rw [← each_id (v := l)]
        refine each_congr fun y _ => ?_
        rcases y.2 with _ | _ | _ <;> rfl

/-! ### is_numeric, coalesce, unnecessary_nesting -/

theorem value_is_numeric {E : Env} {f g : Node} {as : List Node} {s t : Str} (hst : (s = cs! "is.numeric" ∧ t = cs! "is.integer") ∨ (s = cs! "is.integer" ∧ t = cs! "is.numeric"))
    (hf : headName f = some s) (hg : headName g = some t) (hx : ∀ n x, rawArgs E as = [(n, .val x)] → (∀ ls c, x ≠ .factor ls c)) {v : Value}
    (h : eval E (.bin (callOf f as) .none .or2 (callOf g as)) = .val v) : eval E (fn (cs! "is.numeric") as) = .val v := by
  rw [eval_bin, eval_callOf hf, eval_callOf hg] at h
  rw [eval_fn]
  show unary isNumericV (rawArgs E as) = .val v
  have main : ∀ n x, rawArgs E as = [(n, .val x)] → (n = none ∨ n = some (cs! "x")) → ∀ b : Bool, orV (if b then isNumericV x else isIntegerV x) (if b then isIntegerV x else isNumericV x) = .val v → isNumericV x = .val v := by
    intro n x hr _ b ho
    have := hx n x hr
    cases x <;> cases b <;> first | exact ho | (exact absurd rfl (this _ _)) | skip
    all_goals simp_all [orV, isNumericV, isIntegerV, Res.bind, sideV, one, logicals, plain, vOr]
  rcases hst with ⟨rfl, rfl⟩ | ⟨rfl, rfl⟩
  · replace h : orV (unary isNumericV (rawArgs E as)) (unary isIntegerV (rawArgs E as)) = .val v := h
    obtain ⟨a, h1, _⟩ := bind_val h
    obtain ⟨n, x, h3, h4, h5⟩ := unary_val h1
    have := main n x h3 h4 true
    rw [h3] at h ⊢
    simp only [unary, if_pos h4, Res.bind] at h ⊢
    exact this h
  · replace h : orV (unary isIntegerV (rawArgs E as)) (unary isNumericV (rawArgs E as)) = .val v := h
    obtain ⟨a, h1, _⟩ := bind_val h
    obtain ⟨n, x, h3, h4, h5⟩ := unary_val h1
    have := main n x h3 h4 false
    rw [h3] at h ⊢
    simp only [unary, if_pos h4, Res.bind] at h ⊢
    exact this h

theorem eval_braced {E : Env} {b b' : Node} (h : Braced b b') : eval E b' = eval E b := by
  rcases h with rfl | rfl
  · rfl
  · exact eval_braces

theorem isNull_arg {E : Env} {f a x : Node} (hf : headName f = some (cs! "is.null")) (ha : isArg a = true) (hv : valueOf a = some x) {w : Value} (h : eval E (callOf f [a]) = .val w) :
    ∃ y, eval E x = .val y ∧ isNullV y = .val w := by
  have hne : a ≠ .hole := by rintro rfl; cases hv
  rw [eval_callOf hf, rawArgs_single hne, both_arg ha, hv] at h
  obtain ⟨n, y, h1, _, h3⟩ := unary_val (show unary isNullV [(nameOf a, eval E x)] = .val w from h)
  simp only [List.cons.injEq, Prod.mk.injEq, and_true] at h1
  exact ⟨y, h1.2, h3⟩

theorem value_coalesce {E : Env} {f a x y t e : Node} (hf : headName f = some (cs! "is.null")) (ha : isArg a = true) (hva : valueOf a = some x) (ht : Braced y t) (he : Braced x e) {v : Value}
    (h : eval E (.ifElse .none .none (callOf f [a]) .none t .none e) = .val v) : eval E (special x (cs! "||") y) = .val v := by
  rw [eval_ifElse, eval_braced ht, eval_braced he] at h
  unfold ifV at h
  obtain ⟨c, h1, h2⟩ := bind_val h
  obtain ⟨z, h3, h4⟩ := isNull_arg hf ha hva h1
  rw [special, eval_bin]
  show coalesceV (eval E x) (eval E y) = .val v
  rw [h3] at h2 ⊢
  cases z <;> simp only [isNullV, Res.val.injEq] at h4 <;> subst h4 <;> simpa [condV, one, plain, logicals, coalesceV, Res.bind] using h2

theorem value_coalesce_not {E : Env} {f a x y t e : Node} (hf : headName f = some (cs! "is.null")) (ha : isArg a = true) (hva : valueOf a = some x) (ht : Braced x t) (he : Braced y e) {v : Value}
    (h : eval E (.ifElse .none .none (.un .none .bang (callOf f [a])) .none t .none e) = .val v) : eval E (special x (cs! "||") y) = .val v := by
  rw [eval_ifElse, eval_braced ht, eval_braced he, eval_bang] at h
  unfold ifV at h
  obtain ⟨c, h1, h2⟩ := bind_val h
  obtain ⟨d, h1, h1'⟩ := bind_val h1
  obtain ⟨z, h3, h4⟩ := isNull_arg hf ha hva h1
  rw [special, eval_bin]
  show coalesceV (eval E x) (eval E y) = .val v
  rw [h3] at h2 ⊢
  cases z <;> simp only [isNullV, Res.val.injEq] at h4 <;> subst h4 <;> simp only [notV, one, plain, logicals, Res.val.injEq] at h1' <;> subst h1' <;>
    simpa [condV, one, plain, logicals, coalesceV, Res.bind, each, not3] using h2

theorem value_unnecessary_nesting {E : Env} {a b t : Node} (ha : ∀ w, eval E a = .val w → isStr w = false) (hb : ∀ w, eval E b = .val w → isStr w = false) {v : Value}
    (h : eval E (.ifE .none .none a .none (.braces .none (.scons (.ifE .none .none b .none t) [] .snil) .none)) = .val v) :
    eval E (.ifE .none .none (.bin a .none .and2 b) .none t) = .val v := by
  rw [eval_ifE, eval_braces, eval_ifE] at h
  rw [eval_ifE, eval_bin]
  show ifV (andV (eval E a) (eval E b)) (eval E t) (.val .null) = .val v
  have key : ∀ w, isStr w = false → (∃ b, condV w = some (.ok b)) → ∃ b, condV w = some (.ok b) ∧ ∀ k, sideV w k = k (some b) := by
    intro w hs hc
    obtain ⟨b, hc⟩ := hc
    refine ⟨b, hc, fun k => ?_⟩
    cases w <;> simp only [isStr, Bool.true_eq_false] at hs
    all_goals
      simp only [condV] at hc
      unfold sideV
      split at hc
      · rename_i hl; cases hc; simp only [hl]
      · cases hc
      · cases hc
  unfold ifV at h
  obtain ⟨wa, h1, h2⟩ := bind_val h
  obtain ⟨ba, hca, hsa⟩ := key wa (ha wa h1) (by
    split at h2
    · rename_i hc; exact ⟨_, hc⟩
    · rename_i hc; exact ⟨_, hc⟩
    · cases h2
    · cases h2)
  rw [hca] at h2
  simp only [andV, h1, Res.bind, hsa]
  cases ba with
  | false =>
    simp only at h2
    cases h2
    rfl
  | true =>
    simp only at h2
    obtain ⟨wb, h3, h4⟩ := bind_val h2
    obtain ⟨bb, hcb, hsb⟩ := key wb (hb wb h3) (by
      split at h4
      · rename_i hc; exact ⟨_, hc⟩
      · rename_i hc; exact ⟨_, hc⟩
      · cases h4
      · cases h4)
    rw [hcb] at h4
    simp only [h3, hsb]
    cases bb <;> simpa [ifV, Res.bind, one, vAnd, condV, logicals, plain] using h4

end Jarl

import Verif.Props.RValueOps
/-!
# C79: fixes keep what the code computes (more calls)
-/
namespace Jarl
open Spec

/-! ### any_is_na: `NA %in% x`; equals_na: `x %in% NA` -/

theorem any_decide {f : α → Bool} {a : α} {l : List α} [Decidable (a ∈ l)] (h : ∀ x ∈ l, f x = true ↔ x = a) : l.any f = decide (a ∈ l) := by
  rw [Bool.eq_iff_iff, List.any_eq_true, decide_eq_true_iff]
  constructor
  · rintro ⟨x, hx, hf⟩
    rw [← (h x hx).1 hf]; exact hx
  · intro ha; exact ⟨a, ha, (h a ha).2 rfl⟩

/-- Where there is no `NaN`, what is missing is `NA`: as strings. -/
theorem missing_strings {E : Env} {x : Value} {w : Vec (Option Str)} (h : strings E x = some w) (hn : ∀ d, x = .dbl d → ∀ y ∈ d, y.2 ≠ .nan) :
    missing x = some (each Option.isNone w) := by
  unfold strings at h
  cases x <;> simp only [numbers, Option.map_some, Option.map_none, Option.some.injEq, reduceCtorEq] at h
  case null => subst h; rfl
  case lgl v =>
    subst h
    simp only [missing, each_each, Option.some.injEq]
    exact each_congr fun y _ => by rcases y.2 with _ | _ | _ <;> rfl
  case int v =>
    subst h
    simp only [missing, each_each, Option.some.injEq]
    exact each_congr fun y _ => by rcases y.2 with _ | _ <;> rfl
  case dbl v =>
    subst h
    simp only [missing, each_each, Option.some.injEq]
    refine each_congr fun y hy => ?_
    have := hn v rfl y hy
    cases hd : y.2 <;> simp_all [Dbl.isNa, Dbl.text]
  case str v => subst h; rfl

/-- As numbers. -/
theorem missing_numbers {x : Value} {w : Vec Dbl} (h : numbers x = some w) (hn : ∀ d, x = .dbl d → ∀ y ∈ d, y.2 ≠ .nan) :
    missing x = some (each (fun d => decide (d = .na)) w) := by
  unfold numbers at h
  cases x <;> simp only [Option.some.injEq, reduceCtorEq] at h
  case null => subst h; rfl
  case lgl v =>
    subst h
    simp only [missing, each_each, Option.some.injEq]
    exact each_congr fun y _ => by rcases y.2 with _ | _ | _ <;> simp [ofBool]
  case int v =>
    subst h
    simp only [missing, each_each, Option.some.injEq]
    exact each_congr fun y _ => by rcases y.2 with _ | _ <;> simp [ofInt]
  case dbl v =>
    subst h
    simp only [missing, Option.some.injEq]
    refine each_congr fun y hy => ?_
    have := hn v rfl y hy
    cases hd : y.2 <;> simp_all [Dbl.isNa]

/-- A missing value of one of the types. -/
theorem eval_na {E : Env} {s : Str} {v : Value} (h : eval E (.atom .none .na s) = .val v) :
    (isStr v = false ∧ numbers v = some (plain [.na]) ∧ strings E v = some (plain [none])) ∨ (isStr v = true ∧ strings E v = some (plain [none])) := by
  simp only [eval, evalBoth, atomV] at h
  split at h
  · cases h; left; exact ⟨rfl, rfl, rfl⟩
  · split at h
    · cases h; right; exact ⟨rfl, rfl⟩
    · split at h
      · cases h; left; exact ⟨rfl, rfl, rfl⟩
      · split at h
        · cases h; left; exact ⟨rfl, rfl, rfl⟩
        · cases h

theorem numbers_notStr {v : Value} {w : Vec Dbl} (h : numbers v = some w) : isStr v = false := by cases v <;> first | rfl | cases h

theorem value_any_is_na_in {E : Env} {n x : Node} (hn : Const .na n) (hx : ∀ d, eval E x = .val (.dbl d) → ∀ y ∈ d, y.2 ≠ .nan) {v : Value}
    (h : eval E (special n (cs! "in") x) = .val v) : eval E (fn (cs! "anyNA") [x]) = .val v := by
  obtain ⟨s, rfl⟩ := hn
  rw [special, eval_bin] at h
  replace h : (eval E (.atom .none .na s)).bind (fun a => (eval E x).bind fun b => inV E a b) = .val v := h
  obtain ⟨a, h1, h2⟩ := bind_val h
  obtain ⟨b, h3, h4⟩ := bind_val h2
  rw [eval_fn, rawArgs_one h3]
  show anyNaV b = .val v
  have hb : ∀ d, b = .dbl d → ∀ y ∈ d, y.2 ≠ .nan := by rintro d rfl; exact hx d h3
  have goal : ∀ w, strings E b = some w → anyNaV b = .val (one (some (decide (none ∈ elems w)))) := by
    intro w hw
    simp only [anyNaV, missing_strings hw hb, elems_each, List.any_map]
    congr 3
    exact any_decide fun y _ => by cases y <;> simp
  unfold inV at h4
  split at h4
  · rename_i hs
    split at h4
    · rename_i w1 w2 e1 e2
      cases h4
      have : w1 = plain [none] := by
        rcases eval_na h1 with ⟨_, _, h5⟩ | ⟨_, h5⟩ <;> exact Option.some.inj (e1.symm.trans h5)
      subst this
      rw [goal _ e2]
      rfl
    · cases h4
  · rename_i hs
    split at h4
    · rename_i w1 w2 e1 e2
      cases h4
      have : w1 = plain [.na] := by
        rcases eval_na h1 with ⟨_, h5, _⟩ | ⟨h5, _⟩
        · exact Option.some.inj (e1.symm.trans h5)
        · simp [h5] at hs
      subst this
      simp only [anyNaV, missing_numbers e2 hb, elems_each, List.any_map, elems_plain, List.map_cons, List.map_nil]
      show Res.val (one _) = Res.val (one _)
      congr 3
      exact any_decide fun y _ => by simp
    · cases h4

theorem plain_elems {v : Vec α} (h : hasNames v = false) : plain (elems v) = v := by
  unfold plain elems
  rw [List.map_map]
  conv => rhs; rw [← List.map_id v]
  refine List.map_congr_left fun x hx => ?_
  unfold hasNames at h
  rw [List.any_eq_false] at h
  have := h x hx
  obtain ⟨a, b⟩ := x
  simp_all

theorem each_plain {f : α → β} {l : List α} : each f (plain l) = plain (l.map f) := by simp [each, plain, Function.comp_def]

theorem hasNames_each {f : α → β} {v : Vec α} : hasNames (each f v) = hasNames v := by simp [hasNames, each, List.any_map, Function.comp_def]

/-- The names of the elements of a vector. -/
theorem value_equals_na_in {E : Env} {n x : Node} (hn : Const .na n) (hx : ∀ d, eval E x = .val (.dbl d) → ∀ y ∈ d, y.2 ≠ .nan)
    (hm : ∀ y m, eval E x = .val y → missing y = some m → hasNames m = false) {v : Value}
    (h : eval E (special x (cs! "in") n) = .val v) : eval E (fn (cs! "is.na") [x]) = .val v := by
  obtain ⟨s, rfl⟩ := hn
  rw [special, eval_bin] at h
  replace h : (eval E x).bind (fun a => (eval E (.atom .none .na s)).bind fun b => inV E a b) = .val v := h
  obtain ⟨b, h3, h2⟩ := bind_val h
  obtain ⟨a, h1, h4⟩ := bind_val h2
  rw [eval_fn, rawArgs_one h3]
  show isNaV b = .val v
  have hb : ∀ d, b = .dbl d → ∀ y ∈ d, y.2 ≠ .nan := by rintro d rfl; exact hx d h3
  unfold inV at h4
  split at h4
  · rename_i hs
    split at h4
    · rename_i w2 w1 e2 e1
      cases h4
      have : w1 = plain [none] := by
        rcases eval_na h1 with ⟨_, _, h5⟩ | ⟨_, h5⟩ <;> exact Option.some.inj (e1.symm.trans h5)
      subst this
      have hmi := missing_strings e2 hb
      have hnn := hm b _ h3 hmi
      rw [hasNames_each] at hnn
      simp only [isNaV, hmi]
      rw [← plain_elems hnn, each_plain, each_plain, elems_plain]
      simp only [List.map_map, elems_plain, List.mem_singleton]
      congr 3
      refine List.map_congr_left fun y _ => ?_
      cases y <;> rfl
    · cases h4
  · rename_i hs
    split at h4
    · rename_i w2 w1 e2 e1
      cases h4
      have : w1 = plain [.na] := by
        rcases eval_na h1 with ⟨_, h5, _⟩ | ⟨h5, _⟩
        · exact Option.some.inj (e1.symm.trans h5)
        · simp [h5] at hs
      subst this
      have hmi := missing_numbers e2 hb
      have hnn := hm b _ h3 hmi
      rw [hasNames_each] at hnn
      simp only [isNaV, hmi]
      rw [← plain_elems hnn, each_plain, each_plain, elems_plain]
      simp only [List.map_map, elems_plain, List.mem_singleton]
      rfl
    · cases h4

/-! ### numeric_leading_zero, true_false_symbol -/

theorem decimal_zero {s : Str} {q : Rat} (h : plainDecimal ('.' :: s) = some q) : plainDecimal ('0' :: '.' :: s) = some q := by
  have e1 : ('.' :: s).takeWhile Char.isDigit = [] := by simp [List.takeWhile]
  have e2 : ('0' :: '.' :: s).takeWhile Char.isDigit = ['0'] := by
    have h0 : Char.isDigit '0' = true := by decide
    have h1 : Char.isDigit '.' = false := by decide
    simp [List.takeWhile, h0, h1]
  unfold plainDecimal at h ⊢
  simp only [e1, e2, List.length_nil, List.drop_zero, List.length_cons, Nat.zero_add, List.drop_succ_cons, List.nil_append] at h ⊢
  split at h
  · rename_i hb
    rw [if_pos hb]
    rw [← h]
    rfl
  · cases h

theorem value_numeric_leading_zero {E : Env} {s : Str} {v : Value} (h : eval E (.atom .none .double ('.' :: s)) = .val v) : eval E (.atom .none .double ('0' :: '.' :: s)) = .val v := by
  simp only [eval, evalBoth, atomV] at h ⊢
  cases hd : plainDecimal ('.' :: s) with
  | none => rw [hd] at h; cases h
  | some q => rw [hd] at h; rw [decimal_zero hd]; exact h

/-! ### seq, seq2 -/

theorem upDown_one {n : Int} (h : 1 ≤ n) : upDown 1 n = (List.range n.toNat).map (fun i : Nat => (i : Int) + 1) := by
  unfold upDown
  rw [if_pos h]
  have : (n - 1 + 1).toNat = n.toNat := by omega
  rw [this]
  exact List.map_congr_left fun i _ => by omega

theorem wholeOf_ints {n : Int} : wholeOf (ints [n]) = some n := by
  show (if (n : Rat).den = 1 then some (n : Rat).num else none) = some n
  simp

theorem eval_one {E : Env} {n : Node} (h : One n) {v : Value} (hv : eval E n = .val v) : wholeOf v = some 1 := by
  have h1 : plainDecimal (cs! "1") = some 1 := by rfl
  have h1L : plainDecimal (cs! "1L") = none := by rfl
  have h1i : plainDecimal ((cs! "1L").filter (· ≠ 'L')) = some 1 := by rfl
  have h1i' : plainDecimal ((cs! "1").filter (· ≠ 'L')) = some 1 := by rfl
  have hd1 : ((cs! "1").head?).any Char.isDigit = true := by decide
  have hd1L : ((cs! "1L").head?).any Char.isDigit = true := by decide
  rcases h with ⟨k, rfl, hk⟩ | ⟨k, rfl, hk⟩ <;> cases k <;> simp only [eval, evalBoth, atomV, h1, h1L, h1i, h1i', hd1, hd1L, if_true, reduceCtorEq, false_and, if_false] at hv
  all_goals try (cases hv; done)
  all_goals try (simp at hv; done)
  all_goals first
    | (cases hv; rfl)
    | (split at hv <;> first | (cases hv; done) | (exact absurd ‹_ = _› (by decide)))
    | (simp at hv; subst hv; rfl)

/-- One argument with a name. -/
theorem rawArgs_named {E : Env} {as : List Node} {s : Str} {r : Res} (h : rawArgs E as = [(some s, r)]) : ∃ g k g2 e, mkArgs as = .named g k s g2 e ∧ r = eval E e := by
  unfold rawArgs at h
  split at h
  · cases h
  · generalize mkArgs as = n at *
    cases n with
    | named g k s' g2 e => simp [evalBoth] at h; obtain ⟨rfl, rfl⟩ := h; exact ⟨g, k, g2, e, rfl, rfl⟩
    | comma a g rest =>
      exfalso
      simp only [evalBoth] at h
      have h1 := both_len E a
      have h2 := both_len E rest
      have := congrArg List.length h
      simp at this
      omega
    | call f g b args g2 => cases b <;> simp [evalBoth] at h
    | braces g ss g2 =>
      exfalso
      revert h
      generalize hx : Node.braces g ss g2 = x
      unfold evalBoth
      split <;> first | (cases hx; done) | (intro h; simp at h)
    | _ => simp [evalBoth] at h

/-- No names, so the argument has none. -/
theorem rawArgs_noNames {E : Env} {f : Node} {as : List Node} {n : Option Str} {r : Res} (h : rawArgs E as = [(n, r)]) (hn : noNames (callOf f as)) : n = none := by
  cases n with
  | none => rfl
  | some s =>
    obtain ⟨g, k, g2, e, h1, _⟩ := rawArgs_named h
    have := hn (.named g k s g2 e) (by simp [argsOf, callOf, h1, items, argList])
    cases this

theorem value_seq_along {E : Env} {g : Node} {as : List Node} (hg : headName g = some (cs! "length")) (hnn : noNames (callOf g as)) {b v : Value} {n : Int}
    (hb : eval E (callOf g as) = .val b) (hn : wholeOf b = some n) (h1 : 1 ≤ n) (h : Res.val (ints (upDown 1 n)) = .val v) : eval E (fn (cs! "seq_along") as) = .val v := by
  rw [eval_callOf hg] at hb
  obtain ⟨m, y, e3, _, e5⟩ := unary_val (show unary lengthV (rawArgs E as) = .val b from hb)
  cases rawArgs_noNames e3 hnn
  unfold lengthV at e5
  cases hl : len y with
  | none => rw [hl] at e5; cases e5
  | some k =>
    rw [hl] at e5
    cases e5
    rw [wholeOf_ints] at hn
    cases hn
    rw [eval_fn]
    show unary' seqAlongV (rawArgs E as) = .val v
    rw [e3, ← h, upDown_one h1]
    simp only [unary', Res.bind, seqAlongV, hl]
    rfl

theorem value_seq_len' {E : Env} {g : Node} {as : List Node} {name : Str} (hg : headName g = some name) {b v : Value} {n : Int}
    (hb : eval E (callOf g as) = .val b) (hn : wholeOf b = some n) (h1 : 1 ≤ n) (h : Res.val (ints (upDown 1 n)) = .val v) : eval E (fn (cs! "seq_len") [fn name as]) = .val v := by
  have hb' : eval E (fn name as) = .val b := by rw [eval_fn, ← eval_callOf hg]; exact hb
  rw [eval_fn, rawArgs_one hb']
  show seqLenV b = .val v
  rw [seqLenV, hn]
  simp only [if_pos (show (0 : Int) ≤ n by omega)]
  rw [← h, upDown_one h1]

theorem colon_inv {a b v : Value} (h : colonV a b = .val v) (ha : wholeOf a = some 1) : ∃ n, wholeOf b = some n ∧ Res.val (ints (upDown 1 n)) = .val v := by
  unfold colonV at h
  rw [ha] at h
  cases hb : wholeOf b with
  | none => rw [hb] at h; cases h
  | some n => rw [hb] at h; exact ⟨n, rfl, h⟩

theorem value_colon {E : Env} {one x : Node} (h1 : One one) {v : Value} (h : eval E (.bin one .none .colon x) = .val v) :
    ∃ b n, eval E x = .val b ∧ wholeOf b = some n ∧ Res.val (ints (upDown 1 n)) = .val v := by
  rw [eval_bin] at h
  replace h : (eval E one).bind (fun a => (eval E x).bind fun b => colonV a b) = .val v := h
  obtain ⟨a, e1, h⟩ := bind_val h
  obtain ⟨b, e2, h⟩ := bind_val h
  obtain ⟨n, h2, h3⟩ := colon_inv h (eval_one h1 e1)
  exact ⟨b, n, e2, h2, h3⟩

theorem value_seq_length {E : Env} {one g : Node} {as : List Node} (h1 : One one) (hg : headName g = some (cs! "length")) (hnn : noNames (callOf g as))
    (hx : ∀ v n, eval E (callOf g as) = .val v → wholeOf v = some n → 1 ≤ n) {v : Value}
    (h : eval E (.bin one .none .colon (callOf g as)) = .val v) : eval E (fn (cs! "seq_along") as) = .val v := by
  obtain ⟨b, n, e2, h2, h3⟩ := value_colon h1 h
  exact value_seq_along hg hnn e2 h2 (hx _ _ e2 h2) h3

theorem value_seq_len {E : Env} {one g : Node} {as : List Node} {name : Str} (h1 : One one) (hg : headName g = some name)
    (hx : ∀ v n, eval E (callOf g as) = .val v → wholeOf v = some n → 1 ≤ n) {v : Value}
    (h : eval E (.bin one .none .colon (callOf g as)) = .val v) : eval E (fn (cs! "seq_len") [fn name as]) = .val v := by
  obtain ⟨b, n, e2, h2, h3⟩ := value_colon h1 h
  exact value_seq_len' hg e2 h2 (hx _ _ e2 h2) h3

/-- The value of the argument. -/
theorem value_seq2_arg {E : Env} {f g : Node} {as : List Node} {name : Str} (hf : headName f = some (cs! "seq")) (hg : headName g = some name) {v : Value}
    (h : eval E (callOf f [callOf g as]) = .val v) : ∃ b n, eval E (callOf g as) = .val b ∧ wholeOf b = some n ∧ Res.val (ints (upDown 1 n)) = .val v := by
  rw [nested_args hf hg, ← eval_callOf hg] at h
  obtain ⟨b, h1, h2⟩ := unary'_val (show unary' seqV [(none, eval E (callOf g as))] = .val v from h)
  simp only [List.cons.injEq, Prod.mk.injEq, true_and, and_true] at h1
  unfold seqV at h2
  cases hw : wholeOf b with
  | none => rw [hw] at h2; cases h2
  | some n => rw [hw] at h2; exact ⟨b, n, h1, hw, h2⟩

theorem value_seq2_length {E : Env} {f g : Node} {as : List Node} (hf : headName f = some (cs! "seq")) (hg : headName g = some (cs! "length")) (hnn : noNames (callOf g as))
    (hx : ∀ v n, eval E (callOf g as) = .val v → wholeOf v = some n → 1 ≤ n) {v : Value}
    (h : eval E (callOf f [callOf g as]) = .val v) : eval E (fn (cs! "seq_along") as) = .val v := by
  obtain ⟨b, n, e2, h2, h3⟩ := value_seq2_arg hf hg h
  exact value_seq_along hg hnn e2 h2 (hx _ _ e2 h2) h3

theorem value_seq2_len {E : Env} {f g : Node} {as : List Node} {name : Str} (hf : headName f = some (cs! "seq")) (hg : headName g = some name)
    (hx : ∀ v n, eval E (callOf g as) = .val v → wholeOf v = some n → 1 ≤ n) {v : Value}
    (h : eval E (callOf f [callOf g as]) = .val v) : eval E (fn (cs! "seq_len") [fn name as]) = .val v := by
  obtain ⟨b, n, e2, h2, h3⟩ := value_seq2_arg hf hg h
  exact value_seq_len' hg e2 h2 (hx _ _ e2 h2) h3

/-! ### lengths -/

theorem matchArg_mem {params : List Str} {x : Str} {e : Node} {as : List Node} (h : matchArg params as x = some e) : ∃ a ∈ as, valueOf a = some e := by
  unfold matchArg at h
  split at h
  · rename_i a ha
    exact ⟨a, List.mem_of_find?_eq_some ha, h⟩
  · simp only at h
    split at h
    · obtain ⟨a, ha, hv⟩ := Option.bind_eq_some_iff.mp h
      exact ⟨a, (List.mem_filter.mp (List.mem_of_getElem? ha)).1, hv⟩
    · cases h

theorem mem_subs_call {f e a : Node} {as : List Node} (hne : as ≠ [.hole]) (ha : ∀ a ∈ as, isArg a = true) (hm : a ∈ as) (hv : valueOf a = some e) : e ∈ subs (callOf f as) := by
  simp only [subs, callOf, items_mkArgs hne ha]
  exact List.mem_filterMap.mpr ⟨a, hm, hv⟩

theorem withParams2 {params : List Str} {p1 p2 : Str} (hp : params = [p1, p2]) {f : List Value → Res} {E : Env} {as : List Node} {c t : Node} (hl : as.length = 2)
    (h1 : matchArg params as p1 = some c) (h2 : matchArg params as p2 = some t) :
    withParams params f (evalArgs E as) = (eval E c).bind fun x => (eval E t).bind fun y => f [x, y] := by
  have hl' : (evalArgs E as).length = params.length := by simp [evalArgs, hl, hp]
  unfold withParams
  rw [if_pos hl', hp]
  rw [hp] at h1 h2
  simp [collect, passed_matchArg h1, passed_matchArg h2]

theorem applyNames_list {l : List (Str × Value)} : applyNames (.list l) = .list l := rfl

theorem lengthsOf_nil {l : List (Str × Value)} (h : lengthsOf l = some []) : l = [] := by
  cases l with
  | nil => rfl
  | cons x xs =>
    simp only [lengthsOf] at h
    split at h <;> cases h

theorem value_lengths {E : Env} {f : Node} {as : List Node} {x len' : Node} (hf : headName f = some (cs! "sapply")) (hl : as.length = 2) (ha : ∀ a ∈ as, isArg a = true)
    (h2 : matchArg [cs! "X", cs! "FUN"] as (cs! "FUN") = some len') (h1 : matchArg [cs! "X", cs! "FUN"] as (cs! "X") = some x)
    (hx : ∀ y ∈ subs (callOf f as), ∀ w, eval E y = .val w → (∃ l, w = .list l ∧ l ≠ []) ∨ (∃ s, w = .function s) ∨ ∃ n, w = .int [n]) {v : Value}
    (h : eval E (callOf f as) = .val v) : eval E (fn (cs! "lengths") [x]) = .val v := by
  rw [eval_callOf hf, rawArgs_args ha (matchArg_hole h1)] at h
  replace h : withParams [cs! "X", cs! "FUN"] sapplyV (evalArgs E as) = .val v := h
  rw [withParams2 rfl hl h1 h2] at h
  obtain ⟨y, e1, h⟩ := bind_val h
  obtain ⟨z, e2, h⟩ := bind_val h
  obtain ⟨a, hm, hv⟩ := matchArg_mem h1
  have hy := hx x (mem_subs_call (matchArg_hole h1) ha hm hv) y e1
  rw [eval_fn, rawArgs_one e1]
  show lengthsV y = .val v
  unfold sapplyV at h
  split at h
  · rename_i y' g e
    cases e
    split at h
    · obtain ⟨u, h3, h4⟩ := bind_val h
      rcases hy with ⟨l, rfl, hne⟩ | ⟨s, rfl⟩ | ⟨n, rfl⟩
      · rw [applyNames_list] at h3
        rw [h3]
        simp only [lengthsV] at h3
        cases hl : lengthsOf l with
        | none => rw [hl] at h3; cases h3
        | some m =>
          rw [hl] at h3
          cases h3
          cases m with
          | nil => exact absurd (lengthsOf_nil hl) hne
          | cons p ps => exact h4
      · cases h3
      · cases h3
        exact h4
    · cases h
  · cases h

theorem value_lengths_vapply {E : Env} {f : Node} {as : List Node} {x len' : Node} (hf : headName f = some (cs! "vapply")) (hl : as.length = 3) (ha : ∀ a ∈ as, isArg a = true)
    (h2 : matchArg [cs! "X", cs! "FUN", cs! "FUN.VALUE"] as (cs! "FUN") = some len') (h1 : matchArg [cs! "X", cs! "FUN", cs! "FUN.VALUE"] as (cs! "X") = some x)
    (hx : ∀ y ∈ subs (callOf f as), ∀ w, eval E y = .val w → (∃ l, w = .list l ∧ l ≠ []) ∨ (∃ s, w = .function s) ∨ ∃ n, w = .int [n]) {v : Value}
    (h : eval E (callOf f as) = .val v) : eval E (fn (cs! "lengths") [x]) = .val v := by
  have h0 := h
  rw [eval_callOf hf, rawArgs_args ha (matchArg_hole h1)] at h
  replace h : withParams [cs! "X", cs! "FUN", cs! "FUN.VALUE"] vapplyV (evalArgs E as) = .val v := h
  have hall : ∀ {l : List (Option Res)} {k}, collect l k = .val v → ∃ ws, l = ws.map (fun w => some (.val w)) ∧ k ws = .val v := by
    intro l
    induction l with
    | nil => intro k h; exact ⟨[], rfl, h⟩
    | cons r l ih =>
      intro k h
      cases r with
      | none => cases h
      | some r =>
        obtain ⟨w, rfl, h2⟩ := bind_val (show r.bind (fun v => collect l fun vs => k (v :: vs)) = .val v from h)
        obtain ⟨ws, rfl, h3⟩ := ih h2
        exact ⟨w :: ws, rfl, h3⟩
  unfold withParams at h
  rw [if_pos (by simp [evalArgs, hl])] at h
  obtain ⟨ws, hws, h⟩ := hall h
  simp only [List.map_cons, List.map_nil, passed_matchArg h1, passed_matchArg h2] at hws
  rcases ws with _ | ⟨y, _ | ⟨z, _ | ⟨u, _ | _⟩⟩⟩ <;> simp only [List.map_cons, List.map_nil, List.cons.injEq, reduceCtorEq, and_false, and_true, Option.some.injEq] at hws
  obtain ⟨e1, e2, e3⟩ := hws
  have hmem : ∀ w, passed [cs! "X", cs! "FUN", cs! "FUN.VALUE"] (evalArgs E as) (cs! "FUN.VALUE") = some (.val w) → ∃ y ∈ subs (callOf f as), eval E y = .val w := by
    intro w hw
    have hin : ∃ a ∈ evalArgs E as, a.2 = .val w := by
      unfold passed at hw
      split at hw
      · rename_i a ha'
        exact ⟨a, List.mem_of_find?_eq_some ha', Option.some.inj hw⟩
      · simp only at hw
        split at hw
        · obtain ⟨a, ha', hv⟩ := Option.map_eq_some_iff.mp hw
          exact ⟨a, (List.mem_filter.mp (List.mem_of_getElem? ha')).1, hv⟩
        · cases hw
    obtain ⟨a, ha', hv⟩ := hin
    obtain ⟨b, hb, rfl⟩ := List.mem_map.mp ha'
    simp only at hv
    split at hv
    · rename_i e he
      exact ⟨e, mem_subs_call (matchArg_hole h1) ha hb he, hv⟩
    · cases hv
  obtain ⟨a, hm, hv⟩ := matchArg_mem h1
  have hy := hx x (mem_subs_call (matchArg_hole h1) ha hm hv) y e1
  obtain ⟨p, hp, hpe⟩ := hmem u e3
  have hu := hx p hp u hpe
  rw [eval_fn, rawArgs_one e1]
  show lengthsV y = .val v
  have hy' : applyNames y = y := by rcases hy with ⟨l, rfl, _⟩ | ⟨s, rfl⟩ | ⟨n, rfl⟩ <;> rfl
  unfold vapplyV at h
  split at h
  · rename_i y' g n e
    cases e
    split at h
    · rw [hy'] at h; exact h
    · cases h
  · rename_i y' g n e
    cases e
    rcases hu with ⟨l, hu, _⟩ | ⟨s, hu⟩ | ⟨n, hu⟩ <;> cases hu
  · cases h

end Jarl

import Verif.Props.RValueCalls
/-!
# C79: fixes keep what the code computes (classes, sorting, samples, strings)
-/
namespace Jarl
open Spec

/-! ### class_equals -/

/-- A constant string. -/
theorem eval_str {E : Env} {s : Node} (h : Const .str s) {v : Value} (hv : eval E s = .val v) : ∃ b, v = .str (plain [some b]) := by
  obtain ⟨t, rfl⟩ := h
  simp only [eval, evalBoth, atomV] at hv
  split at hv
  · cases hv; exact ⟨_, rfl⟩
  · cases hv

/-- The class of the argument, and what it inherits. -/
theorem class_inherits {E : Env} {g x s : Node} (hg : headName g = some (cs! "class")) (hx : x ≠ .hole) {w : Value} (h : eval E (callOf g [x]) = .val w) {b : Str}
    (hs : eval E s = .val (.str (plain [some b]))) :
    ∃ cls : List Str, w = .str (plain (cls.map some)) ∧ eval E (fn (cs! "inherits") [x, s]) = .val (one (some (decide (b ∈ cls)))) := by
  rw [eval_callOf hg, rawArgs_single hx] at h
  obtain ⟨n, y, h1, h2, h3⟩ := unary_val (show unary classV (evalBoth E x).2 = .val w from h)
  cases h3
  refine ⟨classOf y, rfl, ?_⟩
  rw [eval_fn, rawArgs_cons]
  simp only [mkArgs, h1, (both_val hs).1]
  show withParams [cs! "x", cs! "what"] inheritsV [(n, .val y), (none, .val (.str (plain [some b])))] = _
  rcases h2 with rfl | rfl <;> rfl

/-- Two arguments for two parameters: in this order or the other. -/
theorem withParams_two {p1 p2 : Str} (hne : p1 ≠ p2) {f : List Value → Res} {n m : Option Str} {r t : Res} {v : Value} (h : withParams [p1, p2] f [(n, r), (m, t)] = .val v) :
    ∃ p q, r = .val p ∧ t = .val q ∧ (f [p, q] = .val v ∨ f [q, p] = .val v) := by
  have step : ∀ {a b : Res}, collect [some a, some b] f = .val v → ∃ p q, a = .val p ∧ b = .val q ∧ f [p, q] = .val v := by
    intro a b h
    obtain ⟨p, h1, h2⟩ := bind_val (show a.bind (fun v => b.bind fun w => f [v, w]) = .val v from h)
    obtain ⟨q, h3, h4⟩ := bind_val h2
    exact ⟨p, q, h1, h3, h4⟩
  have noneL : ∀ {b : Option Res}, collect [none, b] f ≠ .val v := by intro b h; cases h
  have noneR : ∀ {a : Res}, collect [some a, none] f ≠ .val v := by intro a h; cases a <;> cases h
  have hp1 : ∀ (as : Args), as.length = 2 → withParams [p1, p2] f as = collect [passed [p1, p2] as p1, passed [p1, p2] as p2] f := by
    intro as ha; unfold withParams; rw [if_pos (by simpa using ha)]; rfl
  rw [hp1 _ rfl] at h
  have hne' : p2 ≠ p1 := fun h => hne h.symm
  have cases3 : ∀ k : Option Str, k = none ∨ k = some p1 ∨ k = some p2 ∨ (k ≠ none ∧ k ≠ some p1 ∧ k ≠ some p2) := by
    intro k
    by_cases h1 : k = none
    · exact Or.inl h1
    · by_cases h2 : k = some p1
      · exact Or.inr (Or.inl h2)
      · by_cases h3 : k = some p2
        · exact Or.inr (Or.inr (Or.inl h3))
        · exact Or.inr (Or.inr (Or.inr ⟨h1, h2, h3⟩))
  have fin1 : collect [some r, some t] f = .val v → ∃ p q, r = .val p ∧ t = .val q ∧ (f [p, q] = .val v ∨ f [q, p] = .val v) := fun h => by
    obtain ⟨p, q, h1, h2, h3⟩ := step h; exact ⟨p, q, h1, h2, Or.inl h3⟩
  have fin2 : collect [some t, some r] f = .val v → ∃ p q, r = .val p ∧ t = .val q ∧ (f [p, q] = .val v ∨ f [q, p] = .val v) := fun h => by
    obtain ⟨p, q, h1, h2, h3⟩ := step h; exact ⟨q, p, h2, h1, Or.inr h3⟩
  have hd1 : decide (some p1 = some p2) = false := by simp [hne]
  have hd2 : decide (some p2 = some p1) = false := by simp [hne']
  have hd3 : decide (p1 = p2) = false := by simp [hne]
  have hd4 : decide (p2 = p1) = false := by simp [hne']
  have hd5 : ∀ p : Str, decide ((none : Option Str) = some p) = false := by simp
  rcases cases3 n with rfl | rfl | rfl | ⟨hn0, hn1, hn2⟩ <;> rcases cases3 m with rfl | rfl | rfl | ⟨hm0, hm1, hm2⟩ <;>
    (try (have hn1' := decide_eq_false hn1; have hn2' := decide_eq_false hn2; have hn0' := Option.isNone_eq_false_iff.mpr (Option.isSome_iff_ne_none.mpr hn0))) <;>
    (try (have hm1' := decide_eq_false hm1; have hm2' := decide_eq_false hm2; have hm0' := Option.isNone_eq_false_iff.mpr (Option.isSome_iff_ne_none.mpr hm0))) <;>
    simp only [passed, List.find?_cons, List.find?_nil, List.filter_cons, List.filter_nil, List.any_cons, List.any_nil, Bool.or_false, Bool.or_true, Bool.false_or, decide_true, decide_false, Bool.not_true,
      Bool.not_false, if_true, if_false, Bool.false_eq_true, List.findIdx?_cons, List.findIdx?_nil, Option.isNone_none, Option.isNone_some, List.getElem?_cons_zero, List.getElem?_cons_succ, List.getElem?_nil, Option.map_some, Option.map_none, *] at h <;>
    first | exact fin1 h | exact fin2 h | exact absurd h noneL | exact absurd h noneR

theorem decide_one {c b : Str} {v : Value} (h : identicalV [.str (plain [some c]), .str (plain [some b])] = .val v) : v = one (some (decide (b ∈ [c]))) := by
  cases h
  simp only [plain, one, List.map_cons, List.map_nil, List.cons.injEq, Prod.mk.injEq, true_and, and_true, Option.some.injEq, List.mem_singleton]
  congr 4
  simp [eq_comm]

theorem value_class_identical {E : Env} {f g x s a b : Node} (hf : headName f = some (cs! "identical")) (ha : isArg a = true) (hb : isArg b = true) (hg : headName g = some (cs! "class"))
    (hx : x ≠ .hole) (hs : Const .str s) (hab : (valueOf a = some (callOf g [x]) ∧ valueOf b = some s) ∨ (valueOf a = some s ∧ valueOf b = some (callOf g [x])))
    (hone : ∀ w, eval E (callOf g [x]) = .val (.str w) → w.length = 1) {v : Value} (h : eval E (callOf f [a, b]) = .val v) : eval E (fn (cs! "inherits") [x, s]) = .val v := by
  have hargs : ∀ c ∈ [a, b], isArg c = true := by simp [ha, hb]
  rw [eval_callOf hf, rawArgs_args hargs (by simp)] at h
  replace h : withParams [cs! "x", cs! "y"] identicalV
    [(nameOf a, match valueOf a with | some e => eval E e | none => .unknown), (nameOf b, match valueOf b with | some e => eval E e | none => .unknown)] = .val v := h
  have key : ∃ p q, eval E (callOf g [x]) = .val p ∧ eval E s = .val q ∧ (identicalV [p, q] = .val v ∨ identicalV [q, p] = .val v) := by
    rcases hab with ⟨e1, e2⟩ | ⟨e1, e2⟩ <;> rw [e1, e2] at h <;> obtain ⟨p, q, h1, h2, h3⟩ := withParams_two (by decide) h
    · exact ⟨p, q, h1, h2, h3⟩
    · exact ⟨q, p, h2, h1, h3.symm⟩
  obtain ⟨p, q, h1, h2, h3⟩ := key
  obtain ⟨t, rfl⟩ := eval_str hs h2
  obtain ⟨cls, rfl, h4⟩ := class_inherits hg hx h1 h2
  have hl := hone _ h1
  rw [h4]
  match cls, hl with
  | [c], _ =>
    rcases h3 with h3 | h3
    · rw [decide_one h3]
    · rw [decide_one h3]; simp [eq_comm]

theorem value_class_in {E : Env} {g x s : Node} (hg : headName g = some (cs! "class")) (hx : x ≠ .hole) (hs : Const .str s) {v : Value}
    (h : eval E (special s (cs! "in") (callOf g [x])) = .val v) : eval E (fn (cs! "inherits") [x, s]) = .val v := by
  rw [special, eval_bin] at h
  replace h : (eval E s).bind (fun a => (eval E (callOf g [x])).bind fun b => inV E a b) = .val v := h
  obtain ⟨a, h1, h⟩ := bind_val h
  obtain ⟨b, h2, h⟩ := bind_val h
  obtain ⟨t, rfl⟩ := eval_str hs h1
  obtain ⟨cls, rfl, h4⟩ := class_inherits hg hx h2 h1
  rw [h4]
  replace h : Res.val (.lgl (plain ((elems (plain [some t])).map (fun a => some (decide (a ∈ elems (plain (cls.map some)))))))) = .val v := h
  cases h
  simp only [elems_plain, one, List.map_cons, List.map_nil, List.mem_map, Option.some.injEq, exists_eq_right]

theorem value_class_equals {E : Env} {g x s l r : Node} {o : Op} (hg : headName g = some (cs! "class")) (hx : x ≠ .hole) (hs : Const .str s)
    (hlr : (l = callOf g [x] ∧ r = s) ∨ (l = s ∧ r = callOf g [x])) (ho : o = .eq2 ∨ o = .ne ∨ o = .special (cs! "in"))
    (hone : ∀ w, eval E (callOf g [x]) = .val (.str w) → w.length = 1) {v : Value} (h : eval E (.bin l .none o r) = .val v) :
    eval E (notIf (o = .ne) (fn (cs! "inherits") [x, s])) = .val v := by
  have hb : ∀ w, binV E w o (eval E l) (eval E r) = (eval E l).bind fun a => (eval E r).bind fun b => if o = .special (cs! "in") then inV E a b else compareV E o a b := by
    intro w
    rcases ho with rfl | rfl | rfl <;> rfl
  rw [eval_bin, hb] at h
  obtain ⟨a, h1, h⟩ := bind_val h
  obtain ⟨b, h2, h⟩ := bind_val h
  have key : ∃ t c : Str, eval E (fn (cs! "inherits") [x, s]) = .val (one (some (decide (t = c)))) ∧ ((a = .str (plain [some c]) ∧ b = .str (plain [some t])) ∨ (a = .str (plain [some t]) ∧ b = .str (plain [some c]))) := by
    rcases hlr with ⟨rfl, rfl⟩ | ⟨rfl, rfl⟩
    · obtain ⟨t, rfl⟩ := eval_str hs h2
      obtain ⟨cls, rfl, h4⟩ := class_inherits hg hx h1 h2
      have hl := hone _ h1
      match cls, hl with
      | [c], _ => exact ⟨t, c, by simpa using h4, Or.inl ⟨rfl, rfl⟩⟩
    · obtain ⟨t, rfl⟩ := eval_str hs h1
      obtain ⟨cls, rfl, h4⟩ := class_inherits hg hx h2 h1
      have hl := hone _ h2
      match cls, hl with
      | [c], _ => exact ⟨t, c, by simpa using h4, Or.inr ⟨rfl, rfl⟩⟩
  obtain ⟨t, c, h4, h5⟩ := key
  rw [eval_notIf, h4]
  have hsym : (decide (c = t)) = decide (t = c) := by simp [eq_comm]
  have hcmp : ∀ (o : Op) (p q : Str), compareV E o (.str (plain [some p])) (.str (plain [some q])) = .val (one (compareStr E o (some p) (some q))) := by
    intro o p q
    show Res.val (.lgl (recycled _ _ _)) = _
    rw [recycle_plain]; rfl
  have hin : ∀ (p q : Str), inV E (.str (plain [some p])) (.str (plain [some q])) = .val (one (some (decide (p = q)))) := by
    intro p q
    show Res.val (.lgl (plain ((elems (plain [some p])).map _))) = _
    simp [elems_plain, one]
  have hnot : (Res.val (one (some (decide (t = c))))).bind notV = .val (one (some (!decide (t = c)))) := rfl
  rcases ho with rfl | rfl | rfl <;> rcases h5 with ⟨rfl, rfl⟩ | ⟨rfl, rfl⟩ <;> simp only [reduceCtorEq, if_true, if_false, hcmp, hin, decide_true, decide_false, Bool.false_eq_true, hnot] at h ⊢ <;>
    rw [← h] <;> simp [compareStr, compare3, hsym]

end Jarl

import Verif.Spec.RValue
import Verif.Lemmas.RFound
/-!
# Lemmas about evaluation
-/
namespace Jarl
open Spec

/-- The arguments as they are evaluated. -/
def rawArgs (E : Env) (as : List Node) : Args := if mkArgs as = .hole then [] else (evalBoth E (mkArgs as)).2

theorem eval_bang {E : Env} {g : Gap} {e : Node} : eval E (.un g .bang e) = (eval E e).bind notV := by simp [eval, evalBoth]

theorem eval_bin {E : Env} {l r : Node} {g : Gap} {o : Op} : eval E (.bin l g o r) = binV E (.bin l g o r) o (eval E l) (eval E r) := by simp [eval, evalBoth]

theorem eval_callOf {E : Env} {f : Node} {as : List Node} {s : Str} (h : headName f = some s) : eval E (callOf f as) = callV E s (rawArgs E as) (fn s as) := by
  simp [eval, callOf, evalBoth, h, rawArgs, fn]

theorem eval_fn {E : Env} {as : List Node} {s : Str} : eval E (fn s as) = callV E s (rawArgs E as) (fn s as) := eval_callOf rfl

theorem eval_ifE {E : Env} {c t : Node} {g g2 g3 : Gap} : eval E (.ifE g g2 c g3 t) = ifV (eval E c) (eval E t) (.val .null) := by simp [eval, evalBoth]

theorem eval_ifElse {E : Env} {c t e : Node} {g g2 g3 g4 : Gap} : eval E (.ifElse g g2 c g3 t g4 e) = ifV (eval E c) (eval E t) (eval E e) := by simp [eval, evalBoth]

theorem eval_braces {E : Env} {e : Node} {g g2 : Gap} : eval E (.braces g (.scons e [] .snil) g2) = eval E e := by simp [eval, evalBoth]

/-- What has a value is an expression. -/
theorem both_val {E : Env} {x : Node} {v : Value} (h : eval E x = .val v) : (evalBoth E x).2 = [(none, .val v)] ∧ x ≠ .hole ∧ nameOf x = none ∧ valueOf x = some x := by
  unfold eval at h
  cases x with
  | hole => simp [evalBoth] at h
  | named => simp [evalBoth] at h
  | comma => simp [evalBoth] at h
  | snil => simp [evalBoth] at h
  | scons => simp [evalBoth] at h
  | call f g b args g2 => cases b <;> simp [evalBoth, nameOf, valueOf] at h ⊢ <;> simp [h]
  | braces g ss g2 =>
    refine ⟨?_, by simp, rfl, rfl⟩
    revert h
    generalize hx : Node.braces g ss g2 = x
    unfold evalBoth
    split <;> first | (cases hx; done) | (intro h; simp only at h ⊢; rw [h])
  | _ => simp [evalBoth, nameOf, valueOf] at h ⊢; simp [h]

theorem rawArgs_single {E : Env} {x : Node} (h : x ≠ .hole) : rawArgs E [x] = (evalBoth E x).2 := if_neg h

theorem rawArgs_one {E : Env} {x : Node} {v : Value} (h : eval E x = .val v) : rawArgs E [x] = [(none, .val v)] := by
  obtain ⟨h1, h2, _⟩ := both_val h
  simp [rawArgs, mkArgs, h1, h2]

theorem both_len (E : Env) (x : Node) : 1 ≤ (evalBoth E x).2.length := by
  induction x with
  | comma a g rest ih1 ih2 => simp only [evalBoth, List.length_append]; omega
  | call f g b args g2 => cases b <;> simp [evalBoth]
  | braces g ss g2 =>
    generalize hx : Node.braces g ss g2 = x
    unfold evalBoth
    split <;> first | (cases hx; done) | simp
  | _ => simp [evalBoth]

/-- Conversely. -/
theorem rawArgs_one_inv {E : Env} {x : Node} {v : Value} (h : rawArgs E [x] = [(none, .val v)]) : eval E x = .val v := by
  by_cases hx : x = .hole
  · subst hx; cases h
  · rw [rawArgs_single hx] at h
    clear hx
    cases x with
    | hole => simp [evalBoth] at h
    | named => simp [evalBoth] at h
    | comma a g rest =>
      simp only [evalBoth] at h
      exfalso
      have h1 := both_len E a
      have h2 := both_len E rest
      have := congrArg List.length h
      simp at this
      omega
    | snil => simp [evalBoth] at h
    | scons => simp [evalBoth] at h
    | call f g b args g2 => cases b <;> simp [evalBoth, eval] at h ⊢ <;> simp [h]
    | braces g ss g2 =>
      revert h
      unfold eval
      generalize hx : Node.braces g ss g2 = x
      unfold evalBoth
      split <;> first | (cases hx; done) | (intro h; simp only [List.cons.injEq, Prod.mk.injEq, true_and, and_true] at h ⊢; exact h)
    | _ => simp [evalBoth, eval] at h ⊢; simp [h]

theorem rawArgs_cons {E : Env} {x y : Node} {as : List Node} : rawArgs E (x :: y :: as) = (evalBoth E x).2 ++ (evalBoth E (mkArgs (y :: as))).2 := by
  simp [rawArgs, mkArgs, evalBoth]

theorem rawArgs_two {E : Env} {x y : Node} {v w : Value} (h1 : eval E x = .val v) (h2 : eval E y = .val w) : rawArgs E [x, y] = [(none, .val v), (none, .val w)] := by
  rw [rawArgs_cons, (both_val h1).1, mkArgs, (both_val h2).1]; rfl

theorem rawArgs_three {E : Env} {x y z : Node} {v w u : Value} (h1 : eval E x = .val v) (h2 : eval E y = .val w) (h3 : eval E z = .val u) :
    rawArgs E [x, y, z] = [(none, .val v), (none, .val w), (none, .val u)] := by
  rw [rawArgs_cons]
  simp only [mkArgs, evalBoth, (both_val h1).1, (both_val h2).1, (both_val h3).1]; rfl

/-- Arguments that are arguments, one by one. -/
theorem both_arg {E : Env} {a : Node} (h : isArg a = true) : (evalBoth E a).2 = [(nameOf a, match valueOf a with | some e => eval E e | none => .unknown)] := by
  cases a with
  | hole => simp [evalBoth, nameOf, valueOf]
  | named g k s g2 e => cases e <;> simp [evalBoth, nameOf, valueOf, eval]
  | comma => cases h
  | snil => cases h
  | scons => cases h
  | call f g b args g2 => cases b <;> simp [evalBoth, nameOf, valueOf, eval]
  | braces g ss g2 =>
    simp only [nameOf, valueOf, eval]
    generalize hx : Node.braces g ss g2 = x
    unfold evalBoth
    split <;> first | (cases hx; done) | rfl
  | _ => simp [evalBoth, nameOf, valueOf, eval]

theorem rawArgs_args {E : Env} : ∀ {as : List Node}, (∀ a ∈ as, isArg a = true) → as ≠ [.hole] → rawArgs E as = evalArgs E as := by
  have key : ∀ (as : List Node), as ≠ [] → (∀ a ∈ as, isArg a = true) → (evalBoth E (mkArgs as)).2 = evalArgs E as := by
    intro as
    induction as with
    | nil => intro h; exact absurd rfl h
    | cons a as ih =>
      intro _ h
      cases as with
      | nil => rw [mkArgs, both_arg (h a (List.mem_cons_self ..))]; rfl
      | cons b bs =>
        have e : (evalBoth E (mkArgs (a :: b :: bs))).2 = (evalBoth E a).2 ++ (evalBoth E (mkArgs (b :: bs))).2 := by simp [mkArgs, evalBoth]
        rw [e, ih (by simp) fun x hx => h x (List.mem_cons_of_mem _ hx), both_arg (h a (List.mem_cons_self ..))]
        rfl
  intro as h hne
  unfold rawArgs
  split
  · rename_i hm
    rcases mkArgs_hole hm with rfl | rfl
    · rfl
    · exact absurd rfl hne
  · rename_i hm
    refine key as ?_ h
    rintro rfl
    exact hm rfl

/-- What is passed is the value of the argument. -/
theorem passed_matchArg {E : Env} {params : List Str} {as : List Node} {x : Str} {e : Node} (h : matchArg params as x = some e) : passed params (evalArgs E as) x = some (eval E e) := by
  unfold matchArg at h
  unfold passed
  have hf : (evalArgs E as).find? (fun a => decide (a.1 = some x)) = (as.find? (fun a => decide (nameOf a = some x))).map (fun a => (nameOf a, match valueOf a with | some e => eval E e | none => .unknown)) := by
    unfold evalArgs
    rw [List.find?_map]
    rfl
  have hany : ∀ q, (evalArgs E as).any (fun a => decide (a.1 = some q)) = as.any (fun a => decide (nameOf a = some q)) := by
    intro q
    unfold evalArgs
    rw [List.any_map]
    rfl
  have hfil : (evalArgs E as).filter (fun a => a.1.isNone) = (as.filter (fun a => (nameOf a).isNone)).map (fun a => (nameOf a, match valueOf a with | some e => eval E e | none => .unknown)) := by
    unfold evalArgs
    rw [List.filter_map]
    rfl
  rw [hf, hfil]
  simp only [hany]
  cases hc : as.find? (fun a => decide (nameOf a = some x)) with
  | some a =>
    rw [hc] at h
    simp only at h
    simp [h]
  | none =>
    rw [hc] at h
    simp only [Option.map_none] at h ⊢
    split at h
    · rename_i i hi
      rw [hi]
      simp only
      rw [List.getElem?_map]
      cases hg : (as.filter (fun a => (nameOf a).isNone))[i]? with
      | none => rw [hg] at h; cases h
      | some a =>
        rw [hg] at h
        simp only [Option.bind_some] at h
        simp [h]
    · cases h

theorem headName_of {name : Str} {f : Node} {as : List Node} (h : Fn name f) (ho : ownHead (callOf f as)) : headName f = some name := by
  rcases h with rfl | ⟨pkg, i, rfl⟩
  · rfl
  · rcases ho with ho | ⟨j, ho⟩ <;> cases ho
    rfl

theorem headName_text {name : Str} {f : Node} {as : List Node} (h : Text name f) (ho : ownHead (callOf f as)) : headName f = some name := by
  obtain ⟨k, rfl, hk⟩ := h
  rcases ho with rfl | ⟨i, rfl⟩
  · rfl
  · exact absurd rfl (hk _ _)

theorem bind_val {r : Res} {f : Value → Res} {v : Value} (h : r.bind f = .val v) : ∃ w, r = .val w ∧ f w = .val v := by
  cases r with
  | val w => exact ⟨w, rfl, h⟩
  | error => cases h
  | unknown => cases h

theorem unary_val {f : Value → Res} {as : Args} {v : Value} (h : unary f as = .val v) : ∃ n x, as = [(n, .val x)] ∧ (n = none ∨ n = some (cs! "x")) ∧ f x = .val v := by
  unfold unary at h
  split at h
  · rename_i n r
    split at h
    · rename_i hn
      obtain ⟨w, rfl, h⟩ := bind_val h
      exact ⟨n, w, rfl, hn, h⟩
    · cases h
  · cases h

theorem unary'_val {f : Value → Res} {as : Args} {v : Value} (h : unary' f as = .val v) : ∃ x, as = [(none, .val x)] ∧ f x = .val v := by
  unfold unary' at h
  split at h
  · obtain ⟨w, rfl, h⟩ := bind_val h
    exact ⟨w, rfl, h⟩
  · cases h

end Jarl

import Verif.Props.RFixRoom
import Verif.Spec.RLaws
/-!
# Reading the new expression
-/
namespace Jarl
open Spec

theorem core_setGap (h e) : core (setGap h e) = core e := by
  induction e with
  | bin l g o r ihl _ =>
    simp only [setGap]
    cases o with
    | pipe =>
      cases r with
      | call f g' b args g2 => cases b <;> simp [core, ihl]
      | _ => simp [core, ihl]
    | _ => simp [core, ihl]
  | ext l g a g2 k s ihl => simp [setGap, core, ihl]
  | call f g b args g2 ihf _ => simp [setGap, core, ihf]
  | _ => rfl

/-- Two expressions with the same tokens are the same. -/
theorem expr_unique {e n md} (he : isExpr e = true) (hn : isExpr n = true) (hw : WF md e) (hw' : WF .free n) (ht : toks e = toks n) : e = n := by
  have P : ∀ {x}, isExpr x = true → WF .free x → Parses (⟨.none, .open .par⟩ :: toks x ++ [⟨.none, .close .par⟩]) (.scons (.paren .none x .none) [] .snil) :=
    fun hx hx' => ⟨rfl, ⟨rfl, ⟨hx, hx'⟩, rfl, trivial, fun h => absurd rfl h⟩, by simp [toks]⟩
  have h1 := P he (WF_free (isArgs_of_isArg (isArg_of_isExpr he)) hw)
  rw [ht] at h1
  have := C50_grammar_unambiguous h1 (P hn hw')
  injection this with h _ _
  injection h

/-- If the new text reads as `n`, then the new expression is `n`, up to layout. -/
theorem placed_core {ed e' n} (h : Placed ed e') (hn : isExpr n = true) (hw : WF .free n) (ht : toks n = ed.content) : core e' = core n := by
  obtain ⟨he, h1, _, h3, _⟩ := h
  have hwe := WF_plug (fs := ed.z.fs) (e := e') h3
  obtain ⟨g, hg, _⟩ := joinHead_eq (headGap (toks ed.z.e)) ed.content
  rw [hg, ← ht, ← setGap_toks (isArg_of_isExpr hn) hw] at h1
  rw [expr_unique he (by rw [setGap_isExpr]; exact hn) hwe (setGap_wf hw) h1, core_setGap]

theorem core_args {n} (h : isArgs n = true) (hw : WF .free n) : core n = mkArgs ((argList n).map core) := by
  induction n with
  | comma a g r _ ihr =>
    have := ihr hw.2.2.2.1 hw.2.2.2.2.1
    simp only [core, argList, List.map_cons, this]
    cases hr : argList r with
    | nil => cases r <;> simp [argList] at hr
    | cons b bs => rfl
  | _ => simp [argList, mkArgs]

theorem core_items {n} (h : isArgs n = true) (hw : WF .free n) : core n = mkArgs ((items n).map core) := by
  unfold items
  split
  · next h => subst h; rfl
  · exact core_args h hw

/-- The text reads as these arguments. -/
def ArgsCore (c : List Tok) (as : List Node) : Prop :=
  ∃ n, isArgs n = true ∧ WF .free n ∧ argBp ≤ lp n ∧ toks n = c ∧ (argList n).map core = as

theorem ArgsCore.comma {c d as bs} (hc : ArgsCore c as) (hd : ArgsCore d bs) : ArgsCore (c ++ tk .comma :: d) (as ++ bs) := by
  obtain ⟨n, h1, h2, h3, rfl, rfl⟩ := hc
  induction n with
  | comma a g r _ ihr =>
    obtain ⟨m, m1, m2, m3, m4, m5⟩ := ihr h2.2.2.2.1 h2.2.2.2.2.1 h2.2.2.2.2.2
    exact ⟨.comma a g m, rfl, ⟨h2.1, h2.2.1, h2.2.2.1, m1, m2, m3⟩, show argBp ≤ topBp by decide, by simp [toks, m4], by simp [argList, m5]⟩
  | _ =>
    obtain ⟨m, m1, m2, m3, rfl, rfl⟩ := hd
    refine ⟨.comma _ .none m, rfl, ⟨?_, h2, h3, m1, m2, m3⟩, show argBp ≤ topBp by decide, rfl, by simp [argList]⟩
    first | rfl | (simp [isArgs, isArg, isExpr] at h1; done)

theorem argList_arg {a} (h : isArg a = true) : argList a = [a] := by
  revert h; cases a <;> simp [isArg, isExpr, argList]

theorem ArgOk.core {a} (h : ArgOk a) : ArgsCore (trimmed a) [core a] :=
  ⟨setGap .none a, by rw [setGap_isArgs]; exact isArgs_of_isArg h.arg, setGap_wf h.wf, by rw [setGap_lp]; exact h.lp, setGap_toks h.arg h.wf,
    by rw [argList_arg (by rw [setGap_isArg]; exact h.arg)]; simp [core_setGap]⟩

theorem ExprOk.core {a} (h : ExprOk a) : ArgsCore (trimmed a) [core a] := h.argOk.core

theorem ArgsCore.join {as : List Node} (h : ∀ a ∈ as, ArgOk a) (hne : as ≠ []) : ArgsCore (joinComma (as.map trimmed)) (as.map core) := by
  induction as with
  | nil => exact absurd rfl hne
  | cons a as ih =>
    cases as with
    | nil => exact (h a (by simp)).core
    | cons b bs => exact ArgsCore.comma (h a (by simp)).core (ih (fun c hc => h c (by simp [hc])) (by simp))

theorem ArgsCore.nil : ArgsCore [] [.hole] := ⟨.hole, rfl, trivial, by decide, rfl, rfl⟩

theorem callOf_hole (f) : callOf f [.hole] = callOf f [] := rfl

/-- The list of items of a call, copied. -/
theorem ArgsCore.raw {n} (h : isArgs n = true) (hw : WF .free n) (hl : argBp ≤ lp n) : ArgsCore (toks n) ((argList n).map core) := ⟨n, h, hw, hl, rfl, rfl⟩

/-- The text reads as an expression with this core, and nothing can bind to a part of it. -/
def ClosedCore (c : List Tok) (k : Node) : Prop :=
  ∃ n, isExpr n = true ∧ WF .free n ∧ postfixBp ≤ lp n ∧ rp n = topBp ∧ toks n = c ∧ core n = k

theorem ClosedCore.call {c as k name} (h : ArgsCore c as) :
    ClosedCore (tk (.atom k name) :: tk (.open .par) :: c ++ [tk (.close .par)]) (callOf (.atom .none k name) as) := by
  obtain ⟨n, a, b, d, rfl, rfl⟩ := h
  exact ⟨.call (.atom .none k name) .none .par n .none, rfl, ⟨rfl, trivial, Or.inr rfl, show postfixBp < topBp by decide, a, b, d⟩, by simp [lp, topBp, postfixBp], rfl,
    by simp [toks, tk], by simp [core, callOf, core_args a b]⟩

theorem ClosedCore.callText {c as name} (h : ArgsCore c as) : ClosedCore (callText name c) (fn name as) := ClosedCore.call h

theorem core_fnName_ns {f : Node} {pkg i s g} (h : f = .atom g (.ns pkg i) s) : core f = .atom .none (.ns pkg i) s := by subst h; rfl

theorem ClosedCore.args {c k} (h : ClosedCore c k) : ArgsCore c [k] := by
  obtain ⟨n, a, b, d, _, e, rfl⟩ := h
  exact ⟨n, isArgs_of_isArg (isArg_of_isExpr a), b, Nat.le_trans (by decide) d, e, by rw [argList_arg (isArg_of_isExpr a)]; rfl⟩

theorem ClosedCore.atom (k s) : ClosedCore [tk (.atom k s)] (.atom .none k s) :=
  ⟨.atom .none k s, rfl, trivial, show postfixBp ≤ topBp by decide, rfl, rfl, rfl⟩

theorem ClosedCore.placed {ed e' k} (h : ClosedCore ed.content k) (hp : Placed ed e') : core e' = k := by
  obtain ⟨n, a, b, _, _, e, rfl⟩ := h
  exact placed_core hp a b e

/-- With `!` in front. -/
theorem ClosedCore.bang {ed e' c k} (h : ClosedCore c k) (hc : ed.content = tk (.op .bang) :: c) (hp : Placed ed e') : Spec.core e' = .un .none .bang k := by
  obtain ⟨n, a, b, d, _, rfl, rfl⟩ := h
  have := placed_core (n := .un .none .bang n) hp rfl ⟨a, b, 9, rfl, Nat.le_trans (by decide) d⟩ (by rw [hc]; rfl)
  simpa [core] using this

/-- A name that is not made by `get_function_name` from something else. -/
def Plain (s : Str) : Prop := s ≠ cs! "return" ∧ '$' ∉ s ∧ '@' ∉ s ∧ s ≠ []

instance (s : Str) : Decidable (Plain s) := inferInstanceAs (Decidable (_ ∧ _))

/-- A function with a name. -/
theorem fn_cases {f s} (h : fnName f = s) (hs : Plain s) : (∃ g, f = .atom g .id s) ∨ ∃ g pkg i, f = .atom g (.ns pkg i) s := by
  obtain ⟨h1, h2, h3, h4⟩ := hs
  unfold fnName at h
  split at h
  · subst h; exact Or.inl ⟨_, rfl⟩
  · subst h; exact Or.inr ⟨_, _, _, rfl⟩
  · exact absurd h.symm h1
  · next a _ slot _ b =>
    subst h
    cases slot <;> simp at h2 h3
  · exact absurd h.symm h4

theorem fn_core {f s} (h : fnName f = s) (hs : Plain s) : Fn s (core f) := by
  rcases fn_cases h hs with ⟨g, rfl⟩ | ⟨g, pkg, i, rfl⟩
  · exact Or.inl rfl
  · exact Or.inr ⟨_, _, rfl⟩

theorem sibling_text {f s} (hf : fnName f = s) (hs : Plain s) {name c as} (h : ArgsCore c as) :
    ClosedCore (prefixedText f name c) (callOf (sibling (core f) name) as) := by
  rcases fn_cases hf hs with ⟨g, rfl⟩ | ⟨g, pkg, i, rfl⟩
  · exact ClosedCore.call h
  · exact ClosedCore.call h

theorem textIs_core {s n} (h : textIs s n = true) : Text s (core n) := by
  unfold textIs at h
  split at h
  · cases h
  · next hne => simp only [decide_eq_true_eq] at h; subst h; exact ⟨_, rfl, fun pkg i hk => hne pkg i hk⟩
  · cases h

theorem isAtom_core {k n} (h : isAtom k n = true) : Const k (core n) := by
  unfold isAtom at h
  split at h
  · simp only [decide_eq_true_eq] at h; subst h; exact ⟨_, rfl⟩
  · cases h

/-! ## Arguments -/

theorem core_call (f g b args g2) : core (.call f g b args g2) = .call (core f) .none b (core args) .none := by rw [core]

theorem asCall_core {md e f args} (hw : WF md e) (h : asCall e = some (f, args)) : core e = callOf (core f) ((items args).map core) := by
  obtain ⟨a, b, c⟩ := asCall_ok hw h
  obtain ⟨g, g2, rfl⟩ := asCall_eq h
  rw [core_call, core_items a b]; rfl

theorem asCall_raw {md e f args} (hw : WF md e) (h : asCall e = some (f, args)) : ∃ as, ArgsCore (toks args) as ∧ ∀ f, callOf f as = callOf f ((items args).map core) := by
  obtain ⟨a, b, c⟩ := asCall_ok hw h
  refine ⟨_, ArgsCore.raw a b c, fun f => ?_⟩
  unfold callOf
  rw [← core_args a b, core_items a b]

theorem expr_core_ne {n} : ∀ {md}, isExpr n = true → WF md n → nameOf (core n) = none ∧ valueOf (core n) = some (core n) ∧ core n ≠ .hole := by
  induction n with
  | paren g e g2 ih => intro md _ hw; exact ih hw.1 hw.2
  | bin l g o r _ _ =>
    intro md _ _
    cases o with
    | pipe =>
      cases r with
      | call f g' b args g2 => cases b <;> simp [core, nameOf, valueOf]
      | _ => simp [core, nameOf, valueOf]
    | _ => simp [core, nameOf, valueOf]
  | _ => intro md h _; first | (cases h; done) | simp [core, nameOf, valueOf]

theorem isExpr_core {n} : ∀ {md}, isExpr n = true → WF md n → isExpr (core n) = true := by
  induction n with
  | paren g e g2 ih => intro md _ hw; exact ih hw.1 hw.2
  | bin l g o r _ _ =>
    intro md _ _
    cases o with
    | pipe =>
      cases r with
      | call f g' b args g2 => cases b <;> rfl
      | _ => rfl
    | _ => rfl
  | _ => intro md h _; first | rfl | (cases h; done)

theorem isArg_core {a} (h : ArgOk a) : isArg (core a) = true := by
  by_cases he : isExpr a = true
  · exact isArg_of_isExpr (isExpr_core he h.wf)
  · have := h.arg
    revert he this; cases a <;> simp [isArg, isExpr, core]

theorem isArg_map {as : List Node} (h : ∀ a ∈ as, ArgOk a) : ∀ a ∈ as.map core, isArg a = true := by
  intro a ha
  obtain ⟨b, hb, rfl⟩ := List.mem_map.mp ha
  exact isArg_core (h b hb)

theorem nameOf_core {a} (h : ArgOk a) : nameOf (core a) = argName a := by
  by_cases he : isExpr a = true
  · rw [(expr_core_ne he h.wf).1]; revert he; cases a <;> simp [argName, isExpr]
  · have := h.arg
    revert he this; cases a <;> simp [isArg, isExpr, core, nameOf, argName]

theorem valueOf_core {a} (h : ArgOk a) : valueOf (core a) = (argValue a).map core := by
  by_cases he : isExpr a = true
  · rw [(expr_core_ne he h.wf).2.1]; revert he; cases a <;> simp [argValue, isExpr]
  · have h1 := h.arg
    have h2 := h.wf
    revert he; cases a <;> simp [isArg, isExpr] at h1 ⊢
    case hole => simp [core, valueOf, argValue]
    case named g k s g2 e =>
      rcases h2.2 with h | h
      · subst h; rfl
      · have := (expr_core_ne h.1 h.2.1).2.2
        rw [show argValue (.named g k s g2 e) = some e by have := h.1; revert this; cases e <;> simp [argValue, isExpr]]
        simp only [core, Option.map]
        revert this; cases core e <;> simp [valueOf]

theorem find_core {as : List Node} {x} (h : ∀ a ∈ as, ArgOk a) :
    (as.map core).find? (fun a => nameOf a = some x) = (argByName as x).map core := by
  unfold argByName
  induction as with
  | nil => rfl
  | cons a as ih =>
    simp only [List.map_cons, List.find?_cons, nameOf_core (h a (by simp))]
    split
    · rfl
    · exact ih fun b hb => h b (by simp [hb])

theorem filter_core {as : List Node} {p : Option Str → Bool} (h : ∀ a ∈ as, ArgOk a) :
    (as.map core).filter (fun a => p (nameOf a)) = (as.filter (fun a => p (argName a))).map core := by
  induction as with
  | nil => rfl
  | cons a as ih =>
    simp only [List.map_cons, List.filter_cons, nameOf_core (h a (by simp))]
    split <;> simp [ih fun b hb => h b (by simp [hb])]

theorem any_core {as : List Node} {q} (h : ∀ a ∈ as, ArgOk a) :
    (as.map core).any (fun a => nameOf a = some q) = as.any (fun a => argName a = some q) := by
  induction as with
  | nil => rfl
  | cons a as ih => simp only [List.map_cons, List.any_cons, nameOf_core (h a (by simp)), ih fun b hb => h b (by simp [hb])]

theorem findIdx_of {l : List Str} {p : Str → Bool} {x pos} (hx : l[pos]? = some x) (h1 : x ∉ l.take pos) (h2 : ∀ q ∈ l.take pos, p q = true) (h3 : p x = true) :
    (l.filter p).findIdx? (· = x) = some pos := by
  induction l generalizing pos with
  | nil => simp at hx
  | cons a as ih =>
    cases pos with
    | zero => simp at hx; subst hx; simp [h3, List.findIdx?_cons]
    | succ n =>
      simp only [List.getElem?_cons_succ] at hx
      simp only [List.take_succ_cons, List.mem_cons, not_or] at h1 h2
      have ha := h2 a (Or.inl rfl)
      simp only [List.filter_cons, ha, if_true, List.findIdx?_cons]
      rw [ih hx h1.2 fun q hq => h2 q (Or.inr hq)]
      simp [Ne.symm h1.1]

/-- Looking for an argument by name and then by position is what R does, if no parameter in front of it is given by name. -/
theorem match_value {params as x pos v} (hok : ∀ a ∈ as, ArgOk a) (hx : params[pos]? = some x) (h1 : x ∉ params.take pos)
    (h2 : (∃ a ∈ as, argName a = some x) ∨ ∀ q ∈ params.take pos, ∀ a ∈ as, argName a ≠ some q) (h : valueBy as x pos = some v) :
    matchArg params (as.map core) x = some (core v) := by
  unfold matchArg
  rw [find_core hok]
  unfold valueBy argBy at h
  cases hn : argByName as x with
  | some a =>
    rw [hn] at h
    simp only [Option.bind_some, Option.map_some] at h ⊢
    rw [valueOf_core (hok a (argByName_mem hn)), h]; rfl
  | none =>
    rw [hn] at h
    have hnone : ∀ a ∈ as, argName a ≠ some x := by
      intro a ha; have := List.find?_eq_none.mp hn a ha; simpa using this
    have h2 : ∀ q ∈ params.take pos, ∀ a ∈ as, argName a ≠ some q := by
      rcases h2 with ⟨a, ha, h⟩ | h
      · exact absurd h (hnone a ha)
      · exact h
    have : (params.filter (fun q => !(as.map core).any (fun a => decide (nameOf a = some q)))).findIdx? (· = x) = some pos := by
      refine findIdx_of hx h1 (fun q hq => ?_) ?_
      · rw [any_core hok]; simpa using h2 q hq
      · rw [any_core hok]; simpa using hnone
    simp only [Option.map_none, this]
    rw [filter_core (p := fun o => o.isNone) hok, List.getElem?_map]
    obtain ⟨a, ha, hv⟩ := Option.bind_eq_some_iff.mp h
    simp only [unnamedArgs] at ha
    rw [ha]
    simp only [Option.map_some, Option.bind_some]
    rw [valueOf_core (hok a (List.mem_filter.mp (List.mem_of_getElem? ha)).1), hv]; rfl

theorem nodup_length {α} [DecidableEq α] {qs : List α} : ∀ {l : List α}, qs.Nodup → (∀ q ∈ qs, q ∈ l) → qs.length ≤ l.length := by
  induction qs with
  | nil => intro l _ _; exact Nat.zero_le _
  | cons q qs ih =>
    intro l hn hs
    have hq := hs q (by simp)
    have := ih (l := l.erase q) (List.nodup_cons.mp hn).2 fun x hx =>
      (List.mem_erase_of_ne (fun (h : x = q) => (List.nodup_cons.mp hn).1 (h ▸ hx))).mpr (hs x (by simp [hx]))
    rw [List.length_erase_of_mem hq] at this
    have := List.length_pos_of_mem hq
    simp only [List.length_cons]; omega

theorem named_unnamed (as : List Node) : (namedArgs as).length + (unnamedArgs as).length = as.length := by
  unfold namedArgs unnamedArgs
  induction as with
  | nil => rfl
  | cons a as ih => cases ha : argName a <;> simp [ha] <;> omega

/-- Names and positions are different arguments. -/
theorem count_args {as : List Node} {qs : List Str} (hn : qs.Nodup) (h : ∀ q ∈ qs, ∃ a ∈ as, argName a = some q) :
    qs.length + (unnamedArgs as).length ≤ as.length := by
  have h1 : qs.length ≤ ((namedArgs as).filterMap argName).length := nodup_length hn fun q hq => by
    obtain ⟨a, ha, hq⟩ := h q hq
    exact List.mem_filterMap.mpr ⟨a, List.mem_filter.mpr ⟨ha, by simp [hq]⟩, hq⟩
  have h2 : ((namedArgs as).filterMap argName).length ≤ (namedArgs as).length := List.length_filterMap_le ..
  have h3 := named_unnamed as
  omega

/-- The argument is there by name. -/
def NamedIn (as : List Node) (x : Str) : Prop := ∃ a ∈ as, argName a = some x

theorem value_cases {as x pos v} (h : valueBy as x pos = some v) : NamedIn as x ∨ pos < (unnamedArgs as).length := by
  unfold valueBy argBy at h
  cases hn : argByName as x with
  | some a =>
    have := List.find?_some hn
    exact Or.inl ⟨a, argByName_mem hn, by simpa using this⟩
  | none =>
    rw [hn] at h
    obtain ⟨a, ha, _⟩ := Option.bind_eq_some_iff.mp h
    exact Or.inr (by obtain ⟨h, _⟩ := List.getElem?_eq_some_iff.mp ha; exact h)

theorem not_named {as x} (h : ¬ NamedIn as x) : ∀ a ∈ as, argName a ≠ some x := fun a ha hq => h ⟨a, ha, hq⟩

theorem match_one {as x v} (hok : ∀ a ∈ as, ArgOk a) (h : valueBy as x 0 = some v) : matchArg [x] (as.map core) x = some (core v) :=
  match_value hok rfl (by simp) (Or.inr (by simp)) h

theorem match_two {as x y a b} (hok : ∀ a ∈ as, ArgOk a) (hxy : x ≠ y) (hl : as.length ≤ 2) (h1 : valueBy as x 0 = some a) (h2 : valueBy as y 1 = some b) :
    matchArg [x, y] (as.map core) x = some (core a) ∧ matchArg [x, y] (as.map core) y = some (core b) ∧ as.length = 2 := by
  have hc : (NamedIn as y ∨ ¬ NamedIn as x) ∧ as.length = 2 := by
    have c1 := value_cases h1
    have c2 := value_cases h2
    by_cases hx : NamedIn as x <;> by_cases hy : NamedIn as y
    · have := count_args (as := as) (qs := [x, y]) (by simp [hxy]) (by simpa using ⟨hx, hy⟩)
      simp at this; exact ⟨Or.inl hy, by omega⟩
    · have := count_args (as := as) (qs := [x]) (by simp) (by simpa [NamedIn] using hx)
      simp only [hy, false_or] at c2; simp at this; omega
    · have := count_args (as := as) (qs := [y]) (by simp) (by simpa [NamedIn] using hy)
      simp only [hx, false_or] at c1; simp at this; exact ⟨Or.inl hy, by omega⟩
    · have := count_args (as := as) (qs := []) (by simp) (by simp)
      simp only [hy, false_or] at c2; simp at this; exact ⟨Or.inr hx, by omega⟩
  refine ⟨match_value hok rfl (by simp) (Or.inr (by simp)) h1, match_value hok rfl (by simpa using hxy.symm) ?_ h2, hc.2⟩
  rcases hc.1 with h | h
  · exact Or.inl h
  · exact Or.inr (by simpa using not_named h)

theorem match_three {as x y w a b c} (hok : ∀ a ∈ as, ArgOk a) (hxy : x ≠ y) (hxw : x ≠ w) (hyw : y ≠ w) (n : Str) (hn : n ≠ x ∧ n ≠ y ∧ n ≠ w)
    (hl : as.length ≤ 3 ∨ NamedIn as n ∧ as.length ≤ 4)
    (h1 : valueBy as x 0 = some a) (h2 : valueBy as y 1 = some b) (h3 : valueBy as w 2 = some c) :
    matchArg [x, y, w] (as.map core) x = some (core a) ∧ matchArg [x, y, w] (as.map core) y = some (core b) ∧ matchArg [x, y, w] (as.map core) w = some (core c) ∧
      3 ≤ as.length ∧ (NamedIn as n → 4 ≤ as.length) := by
  obtain ⟨n1, n2, n3⟩ := hn
  have hc : (NamedIn as y ∨ ¬ NamedIn as x) ∧ (NamedIn as w ∨ ¬ NamedIn as x ∧ ¬ NamedIn as y) ∧ 3 ≤ as.length ∧ (NamedIn as n → 4 ≤ as.length) := by
    have c1 := value_cases h1
    have c2 := value_cases h2
    have c3 := value_cases h3
    have key : ∀ qs : List Str, qs.Nodup → (∀ q ∈ qs, NamedIn as q) → qs.length + (unnamedArgs as).length ≤ as.length := fun qs => count_args
    have k0 := fun h => key [x, y, w] (by simp [hxy, hxw, hyw]) h
    have k0' := fun h => key [n, x, y, w] (by simp [hxy, hxw, hyw, n1, n2, n3]) h
    have k1 := fun h => key [x, y] (by simp [hxy]) h
    have k1' := fun h => key [n, x, y] (by simp [hxy, n1, n2]) h
    have k2 := fun h => key [x, w] (by simp [hxw]) h
    have k2' := fun h => key [n, x, w] (by simp [hxw, n1, n3]) h
    have k3 := fun h => key [y, w] (by simp [hyw]) h
    have k3' := fun h => key [n, y, w] (by simp [hyw, n2, n3]) h
    have k4 := fun h => key [x] (by simp) h
    have k4' := fun h => key [n, x] (by simp [n1]) h
    have k5 := fun h => key [y] (by simp) h
    have k5' := fun h => key [n, y] (by simp [n2]) h
    have k6 := fun h => key [w] (by simp) h
    have k6' := fun h => key [n, w] (by simp [n3]) h
    have k7 := fun h => key [] (by simp) h
    have k7' := fun h => key [n] (by simp) h
    by_cases hx : NamedIn as x <;> by_cases hy : NamedIn as y <;> by_cases hw : NamedIn as w <;> by_cases hn' : NamedIn as n <;>
      simp only [hx, hy, hw, hn', List.forall_mem_cons, List.not_mem_nil, false_imp_iff, implies_true, and_true, true_and, true_or, or_true, false_or, or_false, not_true, not_false_iff,
        false_and, and_false, forall_const, List.length_cons, List.length_nil] at * <;> omega
  refine ⟨match_value hok rfl (by simp) (Or.inr (by simp)) h1, match_value hok rfl (by simpa using hxy.symm) ?_ h2,
    match_value hok rfl (by simpa using ⟨hxw.symm, hyw.symm⟩) ?_ h3, hc.2.2⟩
  · rcases hc.1 with h | h
    · exact Or.inl h
    · exact Or.inr (by simpa using not_named h)
  · rcases hc.2.1 with h | h
    · exact Or.inl h
    · exact Or.inr (by simpa using ⟨not_named h.1, not_named h.2⟩)

end Jarl

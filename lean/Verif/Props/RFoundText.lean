import Verif.Props.RFoundExpect
/-!
# C63: the rules find the code they document, part 5: code that is repeated
-/
namespace Jarl
open Spec

/-- The tokens of the code without layout. -/
theorem toks_bare (e : Node) : toks (bare e) = ((toks e).filter (fun t => t.k ≠ .semi)).map (fun t => ⟨.none, t.k⟩) := by
  induction e with
  | scons e semis rest ih1 ih2 =>
    have : (semis.map (fun g => (⟨g, .semi⟩ : Tok))).filter (fun t => t.k ≠ .semi) = [] := by
      rw [List.filter_eq_nil_iff]
      intro t ht
      obtain ⟨g, _, rfl⟩ := List.mem_map.mp ht
      simp
    simp only [bare, toks, List.filter_append, this, ih1, ih2]
    simp
  | _ => simp_all [bare, toks]

theorem gapless : ∀ {ts : List Tok}, (∀ t ∈ ts, t.gap = .none) → ts.map (fun t => ⟨.none, t.k⟩) = ts
  | [], _ => rfl
  | t :: ts, h => by
    obtain ⟨g, k⟩ := t
    have : g = .none := h ⟨g, k⟩ (by simp)
    subst this
    rw [List.map_cons, gapless fun t ht => h t (by simp [ht])]

theorem trimmed_flat {e : Node} (h : flat e) : trimmed e = toks (bare e) := by
  rw [toks_bare, List.filter_eq_self.mpr (by intro t ht; simpa using h.1 t ht)]
  unfold trimmed
  have h2 := h.2
  generalize toks e = ts at h2
  cases ts with
  | nil => rfl
  | cons t ts =>
    rw [List.map_cons, gapless (ts := ts) (by simpa using h2)]
    rfl

theorem sameText_flat {a b : Node} (ha : flat a) (hb : flat b) (h : bare a = bare b) : sameText a b = true := by
  simp [sameText, trimmed_flat ha, trimmed_flat hb, h]

/-- What is inside behind a first token. -/
theorem flat_sub {ts : List Tok} {e : Node} (h : (∀ t ∈ ts, t.k ≠ .semi) ∧ ∀ t ∈ ts.tail, t.gap = .none) {pre post : List Tok} (he : ts = pre ++ toks e ++ post) : flat e := by
  subst he
  refine ⟨fun t ht => h.1 t (by simp [ht]), fun t ht => h.2 t ?_⟩
  have hm : t ∈ (toks e ++ post).tail := by
    cases hte : toks e with
    | nil => rw [hte] at ht; cases ht
    | cons x xs => rw [hte] at ht; simp at ht ⊢; exact Or.inl ht
  cases pre with
  | nil => simpa using hm
  | cons x xs =>
    simp only [List.cons_append, List.tail_cons, List.append_assoc]
    exact List.mem_append.mpr (Or.inr (List.mem_of_mem_tail hm))

theorem flat_value {a v : Node} (h : flat a) (hv : argValue a = some v) : flat v := by
  cases a with
  | named g k s g2 e =>
    have : v = e := by cases e <;> simp [argValue] at hv <;> exact hv.symm
    subst this
    exact flat_sub (pre := [⟨g, .atom k s⟩, ⟨g2, .op .eq⟩]) (post := []) h (by simp [toks])
  | hole => cases hv
  | _ => cases hv; exact h

theorem toks_items {args a : Node} (h : a ∈ argList args) : ∃ pre post, toks args = pre ++ toks a ++ post := by
  induction args with
  | comma b g rest _ ih =>
    simp only [argList, List.mem_cons] at h
    rcases h with rfl | h
    · exact ⟨[], ⟨g, .comma⟩ :: toks rest, by simp [toks]⟩
    · obtain ⟨pre, post, h⟩ := ih h
      exact ⟨toks b ++ ⟨g, .comma⟩ :: pre, post, by simp [toks, h]⟩
  | _ => simp only [argList, List.mem_singleton] at h; subst h; exact ⟨[], [], by simp⟩

theorem flat_items {e f args a : Node} (h : flat e) (hc : asCall e = some (f, args)) (ha : a ∈ items args) : flat a := by
  obtain ⟨g, g2, rfl⟩ := asCall_eq hc
  have : a ∈ argList args := by
    unfold items at ha
    split at ha
    · cases ha
    · exact ha
  obtain ⟨pre, post, he⟩ := toks_items this
  exact flat_sub h (pre := toks f ++ ⟨g, .open .par⟩ :: pre) (post := post ++ [⟨g2, .close .par⟩]) (by simp [toks, he])

theorem toks_call (f : Node) (hf : toks f ≠ []) {e args : Node} (h : flat e) (hc : asCall e = some (f, args)) : toks args = toks (bare args) := by
  obtain ⟨g, g2, rfl⟩ := asCall_eq hc
  have h1 : ∀ t ∈ toks args, t.k ≠ .semi := fun t ht => h.1 t (by simp [toks, ht])
  have h2 : ∀ t ∈ toks args, t.gap = .none := fun t ht => h.2 t (by
    cases hff : toks f with
    | nil => exact absurd hff hf
    | cons x xs => simp [toks, hff, ht])
  rw [toks_bare, List.filter_eq_self.mpr (by intro t ht; simpa using h1 t ht), gapless h2]

theorem text_toks {s : Str} {f : Node} (h : textIs s f = true) : toks f ≠ [] := by
  cases f <;> simp [textIs] at h
  simp [toks]

theorem found_isNumeric {z f g as} (h : bare z.e = .bin (callOf f as) .none .or2 (callOf g as))
    (hfg : (Text (cs! "is.numeric") f ∧ Text (cs! "is.integer") g) ∨ (Text (cs! "is.integer") f ∧ Text (cs! "is.numeric") g)) (hc : flatSides z) : Hits isNumeric z := by
  obtain ⟨l, r, g1, he, hl, hr⟩ := bin_inv h
  obtain ⟨fl, al, h1, rfl, e1⟩ := call_inv hl
  obtain ⟨fr, ar, h2, rfl, e2⟩ := call_inv hr
  obtain ⟨c1, c2⟩ := hc _ _ _ _ he
  have hfg : ((textIs (cs! "is.integer") fl && textIs (cs! "is.numeric") fr) || (textIs (cs! "is.numeric") fl && textIs (cs! "is.integer") fr)) = true := by
    rcases hfg with ⟨a, b⟩ | ⟨a, b⟩ <;> simp [text_bare a, text_bare b]
  have hfl : toks fl ≠ [] := by
    rcases Bool.or_eq_true_iff.mp hfg with h | h <;> exact text_toks (Bool.and_eq_true_iff.mp h).1
  have hfr : toks fr ≠ [] := by
    rcases Bool.or_eq_true_iff.mp hfg with h | h <;> exact text_toks (Bool.and_eq_true_iff.mp h).2
  have ht : toks al = toks ar := by rw [toks_call _ hfl c1 h1, toks_call _ hfr c2 h2, e1, e2]
  unfold Hits isNumeric
  simp only [he, asBin, Option.bind_eq_bind, Option.bind_some, guard_true, h1, h2, hfg, ht]
  rfl

theorem found_sort {z x g as} (h : bare z.e = .call x .none .brk (callOf g as) .none) (hg : Fn (cs! "order") g) (ha : ∀ a ∈ as, isArg a = true)
    (hu : as.filter (fun a => (nameOf a).isNone) = [x]) (hx : x ≠ .hole) (hc : flatSort z) : Hits sortRule z := by
  obtain ⟨fs, e⟩ := z
  cases e <;> simp [bare] at h
  next x0 g1 b v g2 =>
  obtain ⟨h0, rfl, hv⟩ := h
  obtain ⟨f0, args, h1, rfl, rfl⟩ := call_items hv (by rintro rfl; simp [nameOf] at hu; exact hx hu.symm) ha
  obtain ⟨c1, c2⟩ := hc _ _ _ _ rfl
  rw [argsOf_of h1] at c2
  rw [filter_bare (p := fun o => o.isNone)] at hu
  obtain ⟨u, h2, h3⟩ := List.map_eq_singleton_iff.mp hu
  have hu : unnamedArgs (items args) = [u] := h2
  have hum : u ∈ items args := unnamedArgs_mem (by rw [hu]; simp)
  have hst : sameText u x0 = true := sameText_flat (c2 u hum) c1 (h3.trans h0.symm)
  obtain ⟨gv, gv2, rfl⟩ := asCall_eq h1
  unfold Hits sortRule
  simp only [asSubset, Option.bind_eq_bind, Option.bind_some]
  have hi : items (.call f0 gv .par args gv2) = [.call f0 gv .par args gv2] := rfl
  simp only [hi, List.length_singleton, List.head?_cons, guard_true, Option.bind_some, argName, Option.isNone_none, argValue, asCall, fn_bare hg, hu, hst]
  rfl

theorem one_nchar {x e g : Node} {x' : Node} (h : bare e = callOf g [x']) (hg : Fn (cs! "nchar") g) (hx : valueOf x' = some x') (hbx : bare x = x') (hfx : flat x) (hfe : flat e) : isNcharOf x e = true := by
  have hne : x' ≠ .hole := by rintro rfl; cases hx
  have harg : isArg x' = true := by
    cases x' <;> first | rfl | cases hx
  obtain ⟨f0, args, h1, rfl, h3⟩ := call_inv h
  obtain ⟨a0, h4, h5⟩ := one_arg h3 harg hne
  have hv : valueOf (bare a0) = some x' := by rw [h5]; exact hx
  obtain ⟨v0, h6, h7⟩ := value_bare hv
  have := sameText_flat (flat_value (flat_items hfe h1 (by rw [h4]; simp)) h6) hfx (h7.trans hbx.symm)
  simp [isNcharOf, h1, fn_bare hg, h4, h6, this]

theorem one_literal {n : Node} {q} (hq : q ∈ [(AKind.int, cs! "1"), (.int, cs! "1L"), (.int, cs! "1l"), (.double, cs! "1"), (.double, cs! "1.0"), (.double, cs! "1.")])
    (h : bare n = .atom .none q.1 q.2) : isLiteralOne n = true := by
  cases n <;> simp [bare] at h
  obtain ⟨rfl, rfl⟩ := h
  simp only [List.mem_cons, List.not_mem_nil, or_false] at hq
  rcases hq with rfl | rfl | rfl | rfl | rfl | rfl <;> simp [isLiteralOne]

theorem three_args {args a b c : Node} (h : bare args = mkArgs [a, b, c]) (hc : argList c = [c]) :
    ∃ a0 b0 c0, items args = [a0, b0, c0] ∧ bare a0 = a ∧ bare b0 = b ∧ bare c0 = c := by
  have hi : items (bare args) = [a, b, c] := by
    rw [h]; simp [items, mkArgs, argList, hc]
  rw [items_bare] at hi
  obtain ⟨a0, l, h1, h2, h3⟩ := List.map_eq_cons_iff.mp hi
  obtain ⟨b0, l', h4, h5, h6⟩ := List.map_eq_cons_iff.mp h3
  obtain ⟨c0, h7, h8⟩ := List.map_eq_singleton_iff.mp h6
  exact ⟨a0, b0, c0, by rw [h1, h4, h7], h2, h5, h8⟩

/-- The call among the two sides. -/
theorem boundary_call {z : Zip} {l r : Node} {g : Gap} {o : Op} (he : z.e = .bin l g o r) {f' : Node} {as : List Node} {s : Node}
    (hlr : (bare l = callOf f' as ∧ bare r = s) ∨ (bare l = s ∧ bare r = callOf f' as)) (hc : flatCall z) :
    ∃ c t, (if (asCall l).isSome then some (l, r) else if (asCall r).isSome then some (r, l) else none) = some (c, t) ∧ bare c = callOf f' as ∧ ∀ a ∈ argsOf c, flat a := by
  have hb := hc.1 _ _ _ _ he
  have hf := hc.2 _ _ _ _ he
  rcases hlr with ⟨h1, h2⟩ | ⟨h1, h2⟩
  · obtain ⟨f0, args, h3, _⟩ := call_inv h1
    exact ⟨l, r, by simp [h3], h1, hf.1⟩
  · obtain ⟨f0, args, h3, _⟩ := call_inv h2
    have hl : asCall l = none := by
      cases hl : asCall l with
      | none => rfl
      | some q =>
        obtain ⟨f1, a1⟩ := q
        obtain ⟨g1, g2, rfl⟩ := asCall_eq hl
        exact absurd ⟨⟨_, _, rfl⟩, ⟨_, _, h2⟩⟩ hb
    exact ⟨r, l, by simp [hl, h3], h2, hf.2⟩

theorem boundary_hits {z : Zip} {l r : Node} {g : Gap} {o : Op} (he : z.e = .bin l g o r) (ho : o = .eq2 ∨ o = .ne) {c t f0 args x start stop : Node}
    (hct : (if (asCall l).isSome then some (l, r) else if (asCall r).isSome then some (r, l) else none) = some (c, t)) (h1 : asCall c = some (f0, args))
    (hf : fnName f0 = cs! "substr" ∨ fnName f0 = cs! "substring") (hx : (items args)[0]?.bind argValue = some x) (hs : (items args)[1]?.bind argValue = some start)
    (hp : (items args)[2]?.bind argValue = some stop) (h : isLiteralOne start = true ∨ isNcharOf x stop = true) : Hits stringBoundary z := by
  unfold Hits stringBoundary
  simp only [he, asBin, Option.bind_eq_bind, Option.bind_some, ho, guard_true, hct, h1, hf, hx, hs, hp]
  split
  · rfl
  split
  · rfl
  · simp_all

theorem value_of_bare {a x : Node} (h : bare a = x) (hx : valueOf x = some x) : argValue a = some a := by
  subst h
  cases a <;> first | rfl | exact absurd hx (valueOf_named _ _ _ _ _) | cases hx

theorem found_string_start {z l r f x one stop s o} (h : bare z.e = .bin l .none o r) (hf : Fn (cs! "substr") f ∨ Fn (cs! "substring") f) (hx : valueOf x = some x)
    (hs : StartOf one stop s) (hlr : (l = callOf f [x, one, stop] ∧ r = s) ∨ (l = s ∧ r = callOf f [x, one, stop])) (ho : o = .eq2 ∨ o = .ne) (hc : flatCall z) : Hits stringBoundary z := by
  obtain ⟨l, r, g, he, rfl, rfl⟩ := bin_inv h
  obtain ⟨⟨q, hq, rfl⟩, body, _, _, k, rfl, _⟩ := hs
  obtain ⟨c, t, hct, hb, _⟩ := boundary_call he hlr hc
  obtain ⟨f0, args, h1, rfl, h3⟩ := call_inv hb
  obtain ⟨a0, b0, c0, hi, e1, e2, e3⟩ := three_args h3 rfl
  have v1 := value_of_bare e1 hx
  have v2 : argValue b0 = some b0 := value_of_bare e2 rfl
  have v3 : argValue c0 = some c0 := value_of_bare e3 rfl
  exact boundary_hits he ho hct h1 (by rcases hf with h | h <;> simp [fn_bare h]) (by rw [hi]; exact v1) (by rw [hi]; exact v2) (by rw [hi]; exact v3) (Or.inl (one_literal hq e2))

theorem found_string_end {z l r f x start stop s o} (h : bare z.e = .bin l .none o r) (hf : Fn (cs! "substr") f ∨ Fn (cs! "substring") f) (hx : valueOf x = some x)
    (hs : EndOf x start stop s) (hlr : (l = callOf f [x, start, stop] ∧ r = s) ∨ (l = s ∧ r = callOf f [x, start, stop])) (ho : o = .eq2 ∨ o = .ne) (hc : flatCall z) : Hits stringBoundary z := by
  obtain ⟨l, r, g, he, rfl, rfl⟩ := bin_inv h
  obtain ⟨n1, n2, n3, k, hn, _, _, rfl, rfl⟩ := hs
  obtain ⟨c, t, hct, hb, hfl⟩ := boundary_call he hlr hc
  obtain ⟨f0, args, h1, rfl, h3⟩ := call_inv hb
  obtain ⟨a0, b0, c0, hi, e1, e2, e3⟩ := three_args h3 rfl
  have v1 := value_of_bare e1 hx
  have v2 : argValue b0 = some b0 := value_of_bare e2 rfl
  have v3 : argValue c0 = some c0 := value_of_bare e3 rfl
  rw [argsOf_of h1, hi] at hfl
  refine boundary_hits he ho hct h1 (by rcases hf with h | h <;> simp [fn_bare h]) (by rw [hi]; exact v1) (by rw [hi]; exact v2) (by rw [hi]; exact v3) (Or.inr ?_)
  exact one_nchar e3 hn hx e1 (hfl a0 (by simp)) (hfl c0 (by simp))

theorem branch_same {x b : Node} {x' : Node} (hx : bare x = x') (hbr : Braced x' (bare b)) (hf : flat x) (hb : flatBranch b) (hnb : ∀ g ss g2, x ≠ .braces g ss g2) :
    sameText x (singleStatement b) = true := by
  subst hx
  rcases hbr with h | h
  · have : singleStatement b = b := by
      cases b <;> try rfl
      cases x <;> simp [bare] at h
      exact absurd rfl (hnb _ _ _)
    rw [this]
    refine sameText_flat hf ?_ h.symm
    rcases hb with hb | ⟨g, s, semis, g2, rfl, _⟩
    · exact hb
    · cases x <;> simp [bare] at h
      exact absurd rfl (hnb _ _ _)
  · cases b <;> simp [bare] at h
    next g ss g2 =>
    cases ss <;> simp [bare] at h
    next s semis rest =>
    obtain ⟨h, hr⟩ := h
    cases rest <;> simp [bare] at hr
    refine sameText_flat hf ?_ h.symm
    simp only [singleStatement]
    rcases hb with hb | ⟨_, _, _, _, heq, hs⟩
    · exact flat_sub hb (pre := [⟨g, .lbrace⟩]) (post := semis.map (fun g => ⟨g, .semi⟩) ++ [⟨g2, .rbrace⟩]) (by simp [toks])
    · cases heq; exact hs

theorem found_coalesce {z f a x y t e} {b : Bool} (h : bare z.e = .ifElse .none .none (notIf b (callOf f [a])) .none t .none e) (hf : Fn (cs! "is.null") f) (ha : isArg a = true)
    (hx : valueOf a = some x) (h1 : Braced (if b then x else y) t) (h2 : Braced (if b then y else x) e) (hc : flatNull z) : Hits coalesce z := by
  obtain ⟨fs, e0⟩ := z
  cases e0 <;> simp [bare] at h
  next g g2 c g3 t0 g4 e0 =>
  obtain ⟨hcond, rfl, rfl⟩ := h
  obtain ⟨q1, q2⟩ := hc _ _ _ _ _ _ _ rfl
  have hne : a ≠ .hole := by rintro rfl; cases hx
  cases b with
  | false =>
    simp only [notIf, Bool.false_eq_true, if_false] at hcond h1 h2
    obtain ⟨f0, args, k1, rfl, k3⟩ := call_inv hcond
    obtain ⟨a0, k4, rfl⟩ := one_arg k3 ha hne
    obtain ⟨v0, k5, rfl⟩ := value_bare hx
    obtain ⟨gc, gc2, rfl⟩ := asCall_eq k1
    simp only [asked, argsOf, k4, List.mem_singleton, forall_eq] at q1
    have hs := branch_same rfl h2 (flat_value q1.1 k5) q2 (by intro g ss g2 hv; exact q1.2 g ss g2 (by rw [k5, hv]))
    simp [Hits, coalesce, asCall, fn_bare hf, k4, k5, hs]
  | true =>
    simp only [notIf, if_true] at hcond h1 h2
    obtain ⟨c0, gu, rfl, hcall⟩ := un_inv hcond
    obtain ⟨f0, args, k1, rfl, k3⟩ := call_inv hcall
    obtain ⟨a0, k4, rfl⟩ := one_arg k3 ha hne
    obtain ⟨v0, k5, rfl⟩ := value_bare hx
    simp only [asked, argsOf_of k1, k4, List.mem_singleton, forall_eq] at q1
    have hs := branch_same rfl h1 (flat_value q1.1 k5) q2 (by intro g ss g2 hv; exact q1.2 g ss g2 (by rw [k5, hv]))
    simp [Hits, coalesce, k1, fn_bare hf, k4, k5, hs]

end Jarl

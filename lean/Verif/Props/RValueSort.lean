import Verif.Props.RValueMore
/-!
# C79: fixes keep what the code computes (sorting, samples, patterns, strings)
-/
namespace Jarl
open Spec

/-! ### sort -/

theorem pickAt_zip {v : List α} {l : List (α × Nat)} (h : ∀ x ∈ l, x ∈ v.zipIdx 1) : pickAt v (l.map (·.2)) = l.map (·.1) := by
  induction l with
  | nil => rfl
  | cons x l ih =>
    have ih := ih fun y hy => h y (List.mem_cons_of_mem _ hy)
    have hx := h x (List.mem_cons_self ..)
    obtain ⟨a, i⟩ := x
    obtain ⟨h1, h2⟩ : 1 ≤ i ∧ v[i - 1]? = some a := by
      have := List.mem_zipIdx hx
      refine ⟨this.1, ?_⟩
      rw [this.2.2]
      exact List.getElem?_eq_getElem (by omega)
    unfold pickAt at ih ⊢
    simp only [List.map_cons]
    rw [List.filterMap_cons]
    simp only [h2, if_neg (show ¬ i = 0 by omega)]
    rw [ih]

theorem sorted_pick {le : α → α → Bool} {na : α → Bool} {v : Vec α} (h : ∀ a ∈ elems v, na a = false) : pickAt v (orderOf le na (elems v)) = sortedBy le na v := by
  have hz : ∀ x ∈ (elems v).zipIdx 1, na x.1 = false := by
    intro x hx
    refine h _ ?_
    obtain ⟨a, i⟩ := x
    have := List.mem_zipIdx hx
    simp only [this.2.2]
    exact List.getElem_mem _
  unfold orderOf sortedBy
  have e1 : ((elems v).zipIdx 1).filter (fun x => !na x.1) = (elems v).zipIdx 1 := List.filter_eq_self.mpr fun x hx => by simp [hz x hx]
  have e2 : ((elems v).zipIdx 1).filter (fun x => na x.1) = [] := List.filter_eq_nil_iff.mpr fun x hx => by simp [hz x hx]
  have e3 : v.filter (fun x => !na x.2) = v := List.filter_eq_self.mpr fun x hx => by simp [h x.2 (List.mem_map.mpr ⟨x, hx, rfl⟩)]
  simp only [e1, e2, e3, List.map_nil, List.append_nil]
  have e4 : (elems v).zipIdx 1 = (v.zipIdx 1).map (fun x => (x.1.2, x.2)) := by
    unfold elems
    rw [List.zipIdx_map]
    rfl
  have e5 : ((elems v).zipIdx 1).mergeSort (fun a b => le a.1 b.1) = ((v.zipIdx 1).mergeSort (fun a b => le a.1.2 b.1.2)).map (fun x => (x.1.2, x.2)) := by
    rw [e4]
    exact (List.map_mergeSort (r := fun a b : (Str × α) × Nat => le a.1.2 b.1.2) (s := fun a b : α × Nat => le a.1 b.1) (f := fun x : (Str × α) × Nat => (x.1.2, x.2)) (fun a _ b _ => rfl)).symm
  rw [e5, List.map_map]
  show pickAt v (((v.zipIdx 1).mergeSort (fun a b => le a.1.2 b.1.2)).map (·.2)) = _
  rw [pickAt_zip (fun x hx => (List.mergeSort_perm _ _).mem_iff.mp hx)]
  rw [List.map_mergeSort (r := fun a b : (Str × α) × Nat => le a.1.2 b.1.2) (s := fun a b : Str × α => le a.2 b.2) (f := fun x : (Str × α) × Nat => x.1) (fun a _ b _ => rfl)]
  congr 1
  simp

theorem order_bounds {le : α → α → Bool} {na : α → Bool} {l : List α} : ∀ i ∈ orderOf le na l, 1 ≤ i ∧ i ≤ l.length := by
  intro i hi
  have hz : ∀ x ∈ l.zipIdx 1, 1 ≤ x.2 ∧ x.2 ≤ l.length := by
    intro x hx
    obtain ⟨a, i⟩ := x
    have := List.mem_zipIdx hx
    simp only at this ⊢
    omega
  unfold orderOf at hi
  simp only [List.mem_append, List.mem_map] at hi
  rcases hi with ⟨x, hx, rfl⟩ | ⟨x, hx, rfl⟩
  · exact hz _ (List.mem_filter.mp ((List.mergeSort_perm _ _).mem_iff.mp hx)).1
  · exact hz _ (List.mem_filter.mp hx).1

theorem indices_ofNat {l : List Nat} (h : ∀ i ∈ l, 1 ≤ i) : indices (ints (l.map Int.ofNat)) = some l := by
  show ((plain ((l.map Int.ofNat).map some)).mapM fun x => x.2.bind (fun n => if 0 < n then some n.toNat else none)) = some l
  induction l with
  | nil => rfl
  | cons a l ih =>
    have ha := h a (List.mem_cons_self ..)
    have ih := ih fun i hi => h i (List.mem_cons_of_mem _ hi)
    simp only [plain, List.map_cons, List.mapM_cons] at ih ⊢
    rw [ih]
    have : 0 < a := ha
    simp [this]

theorem orderOf_map {f : α → β} {le : β → β → Bool} {na : β → Bool} {l : List α} : orderOf le na (l.map f) = orderOf (fun a b => le (f a) (f b)) (fun a => na (f a)) l := by
  unfold orderOf
  have e : (l.map f).zipIdx 1 = (l.zipIdx 1).map (fun x => (f x.1, x.2)) := by rw [List.zipIdx_map]; rfl
  simp only [e, List.filter_map, List.map_map]
  congr 1
  rw [← List.map_mergeSort (r := fun a b : α × Nat => le (f a.1) (f b.1)) (s := fun a b : β × Nat => le a.1 b.1) (f := fun x : α × Nat => (f x.1, x.2)) (fun a _ b _ => rfl), List.map_map]
  rfl

theorem value_sort_vec {E : Env} {y i v : Value} (hn : anyNaV y = .val (one (some false)) ) (h1 : orderV E y = .val i) (h2 : indexV y i = .val v) : sortV E y = .val v := by
  have hall : ∀ {m : Vec Bool}, (elems m).any id = false → ∀ b ∈ elems m, b = false := by
    intro m hm b hb
    rw [List.any_eq_false] at hm
    simpa using hm b hb
  have main : ∀ {α : Type} {le : α → α → Bool} {na : α → Bool} {w : Vec α}, (elems (each na w)).any id = false → i = ints ((orderOf le na (elems w)).map Int.ofNat) →
      (∀ a ∈ elems w, na a = false) ∧ indices i = some (orderOf le na (elems w)) ∧ (orderOf le na (elems w)).all (· ≤ w.length) = true ∧ pickAt w (orderOf le na (elems w)) = sortedBy le na w := by
    intro α le na w hm hi
    have h0 : ∀ a ∈ elems w, na a = false := by
      intro a ha
      refine hall hm _ ?_
      rw [elems_each]
      exact List.mem_map.mpr ⟨a, ha, rfl⟩
    refine ⟨h0, ?_, ?_, sorted_pick h0⟩
    · rw [hi]; exact indices_ofNat fun i hi => (order_bounds i hi).1
    · rw [List.all_eq_true]
      intro j hj
      have := (order_bounds j hj).2
      simpa [elems] using this
  unfold anyNaV at hn
  cases y with
  | null => cases h1; simp only [indexV] at h2; split at h2 <;> (try split at h2) <;> cases h2
  | list v => cases h1
  | factor => cases h1
  | object => cases h1
  | function => cases h1
  | str w =>
    simp only [missing, one, plain, Res.val.injEq, Value.lgl.injEq, List.map_cons, List.map_nil, List.cons.injEq, Prod.mk.injEq, true_and, and_true, Option.some.injEq] at hn
    obtain ⟨_, h3, h4, h5⟩ := main (le := leStr E) hn (by cases h1; rfl)
    simp only [indexV, h3, len, h4, if_true, h5] at h2
    exact h2
  | dbl w =>
    simp only [missing, one, plain, Res.val.injEq, Value.lgl.injEq, List.map_cons, List.map_nil, List.cons.injEq, Prod.mk.injEq, true_and, and_true, Option.some.injEq] at hn
    obtain ⟨_, h3, h4, h5⟩ := main (le := leNum) hn (by cases h1; rfl)
    simp only [indexV, h3, len, h4, if_true, h5] at h2
    exact h2
  | int w =>
    simp only [missing, one, plain, Res.val.injEq, Value.lgl.injEq, List.map_cons, List.map_nil, List.cons.injEq, Prod.mk.injEq, true_and, and_true, Option.some.injEq] at hn
    obtain ⟨_, h3, h4, h5⟩ := main (le := fun a b => leNum (ofInt a) (ofInt b)) hn (by
      cases h1
      simp only [elems_each, orderOf_map]
      congr 3
      funext a; cases a <;> rfl)
    simp only [indexV, h3, len, h4, if_true, h5] at h2
    exact h2
  | lgl w =>
    simp only [missing, one, plain, Res.val.injEq, Value.lgl.injEq, List.map_cons, List.map_nil, List.cons.injEq, Prod.mk.injEq, true_and, and_true, Option.some.injEq] at hn
    obtain ⟨_, h3, h4, h5⟩ := main (le := fun a b => leNum (ofBool a) (ofBool b)) hn (by
      cases h1
      simp only [elems_each, orderOf_map]
      congr 3
      funext a; rcases a with _ | _ | _ <;> rfl)
    simp only [indexV, h3, len, h4, if_true, h5] at h2
    exact h2

theorem value_sort {E : Env} {x g : Node} {as opts : List Node} (hg : headName g = some (cs! "order")) (ha : ∀ a ∈ as, isArg a = true)
    (hx : as.filter (fun a => (nameOf a).isNone) = [x]) (ho : opts.Perm (as.filter (fun a => (nameOf a).isSome))) (hn : ∀ y, eval E x = .val y → anyNaV y = .val (one (some false))) {v : Value}
    (h : eval E (.call x .none .brk (callOf g as) .none) = .val v) : eval E (fn (cs! "sort") (x :: opts)) = .val v := by
  have h' : (eval E x).bind (fun y => (eval E (callOf g as)).bind fun i => indexV y i) = .val v := by
    rw [← h]
    simp [eval, evalBoth, callOf]
  obtain ⟨y, h1, h2⟩ := bind_val h'
  obtain ⟨i, h3, h4⟩ := bind_val h2
  rw [eval_callOf hg] at h3
  obtain ⟨z, h5, h6⟩ := unary'_val (show unary' (orderV E) (rawArgs E as) = .val i from h3)
  have hne : as ≠ [.hole] := by
    rintro rfl
    cases h5
  have hargs := rawArgs_args (E := E) ha hne
  rw [h5] at hargs
  have hl : as.length = 1 := by
    have := congrArg List.length hargs
    simpa [evalArgs] using this.symm
  match as, hl with
  | [a], _ =>
    have hna : nameOf a = none := by
      simp only [evalArgs, List.map_cons, List.map_nil, List.cons.injEq, Prod.mk.injEq, and_true] at hargs
      exact hargs.1.symm
    simp only [List.filter_cons, hna, Option.isNone_none, if_true, List.filter_nil, List.cons.injEq, and_true] at hx
    subst hx
    simp only [List.filter_cons, hna, Option.isSome_none, Bool.false_eq_true, if_false, List.filter_nil, List.perm_nil] at ho
    subst ho
    have hyz : z = y := by
      have := rawArgs_one_inv h5
      rw [h1] at this
      exact (Res.val.inj this).symm
    subst hyz
    rw [eval_fn, rawArgs_one h1]
    show sortV E z = .val v
    exact value_sort_vec (hn z h1) h6 h4

/-! ### sample_int -/

theorem pickAt_ints {n : Nat} {l : List Nat} (h : ∀ i ∈ l, 1 ≤ i ∧ i ≤ n) :
    pickAt (plain (((List.range n).map (fun i : Nat => (i : Int) + 1)).map some)) l = plain ((l.map Int.ofNat).map some) := by
  induction l with
  | nil => rfl
  | cons i l ih =>
    have ih := ih fun j hj => h j (List.mem_cons_of_mem _ hj)
    obtain ⟨h1, h2⟩ := h i (List.mem_cons_self ..)
    unfold pickAt at ih ⊢
    rw [List.filterMap_cons]
    have e : (plain (((List.range n).map (fun i : Nat => (i : Int) + 1)).map some))[i - 1]? = some ([], some (i : Int)) := by
      have hlt : i - 1 < n := by omega
      simp only [plain, List.getElem?_map, List.getElem?_range hlt, Option.map_some, Option.some.injEq, Prod.mk.injEq, true_and]
      omega
    simp only [if_neg (show ¬ i = 0 by omega), e]
    rw [ih]
    rfl

theorem value_sample_int {E : Env} {f one n : Node} {as : List Node} (hf : headName f = some (cs! "sample")) (h1 : One one) (ha : ∀ a ∈ as, isArg a = true)
    (hname : ∀ a ∈ as, nameOf a = none ∨ nameOf a = some (cs! "size")) (hn : ∀ w m, eval E n = .val w → wholeOf w = some m → 1 ≤ m)
    (hd : ∀ m s l, E.draw m s = some l → ∀ i ∈ l, 1 ≤ i ∧ (i : Int) ≤ m) {v : Value}
    (h : eval E (callOf f (.bin one .none .colon n :: as)) = .val v) : eval E (fn (cs! "sample.int") (n :: as)) = .val v := by
  have hargs : ∀ a ∈ Node.bin one .none .colon n :: as, isArg a = true := by
    intro a hm
    rcases List.mem_cons.mp hm with rfl | hm
    · rfl
    · exact ha a hm
  rw [eval_callOf hf, rawArgs_args hargs (by simp)] at h
  replace h : withParams [cs! "x", cs! "size"] (sampleV E) ((none, eval E (.bin one .none .colon n)) :: evalArgs E as) = .val v := h
  have hl : as.length = 1 := by
    unfold withParams at h
    split at h
    · rename_i hl; simpa [evalArgs] using hl
    · cases h
  match as, hl with
  | [a], _ =>
    have pass : ∀ (p r t : Res) (q : Str) (g : List Value → Res), q = cs! "x" ∨ q = cs! "n" → withParams [q, cs! "size"] g [(none, r), (nameOf a, t)] = r.bind fun x => t.bind fun y => g [x, y] := by
      intro p r t q g hq
      rcases hname a (by simp) with e | e <;> rw [e] <;> rcases hq with rfl | rfl <;> rfl
    have hev : evalArgs E [a] = [(nameOf a, match valueOf a with | some e => eval E e | none => .unknown)] := rfl
    rw [hev, pass .error _ _ _ _ (Or.inl rfl)] at h
    obtain ⟨x, e1, h2⟩ := bind_val h
    obtain ⟨s, e2, h3⟩ := bind_val h2
    obtain ⟨w, m, e3, e4, e5⟩ := value_colon h1 e1
    have hm := hn w m e3 e4
    rw [eval_fn, rawArgs_cons, (both_val e3).1]
    simp only [mkArgs, both_arg (ha a (by simp))]
    show withParams [cs! "n", cs! "size"] (sampleIntV E) [(none, .val w), (nameOf a, match valueOf a with | some e => eval E e | none => .unknown)] = .val v
    rw [pass .error _ _ _ _ (Or.inr rfl), e2]
    show sampleIntV E [w, s] = .val v
    rw [upDown_one hm] at e5
    cases e5
    have hi : sampleIntV E [ints [m], s] = sampleIntV E [w, s] := by simp only [sampleIntV, e4, wholeOf_ints]
    rw [← hi]
    by_cases h1m : m = 1
    · subst h1m
      exact h3
    · have hlen : 2 ≤ m.toNat := by omega
      have hr : ∃ b c r, (List.range m.toNat).map (fun i : Nat => (i : Int) + 1) = b :: c :: r := by
        cases hk : m.toNat with
        | zero => omega
        | succ k =>
          cases k with
          | zero => omega
          | succ k => exact ⟨_, _, _, by rw [List.range_succ_eq_map, List.map_cons, List.range_succ_eq_map, List.map_cons, List.map_cons]⟩
      have hs : sampleV E [ints ((List.range m.toNat).map (fun i : Nat => (i : Int) + 1)), s] =
          match E.draw m s with
          | some l => .val (.int (pickAt (plain (((List.range m.toNat).map (fun i : Nat => (i : Int) + 1)).map some)) l))
          | none => .error := by
        have hlen' : ((plain (((List.range m.toNat).map (fun i : Nat => (i : Int) + 1)).map some) : Vec (Option Int)).length : Int) = m := by simp [plain]; omega
        obtain ⟨b, c, r, hr⟩ := hr
        generalize (List.range m.toNat).map (fun i : Nat => (i : Int) + 1) = L at hlen' hr ⊢
        subst hr
        rw [← hlen']
        rfl
      rw [hs] at h3
      simp only [sampleIntV, wholeOf_ints, if_neg (show ¬ m ≤ 0 by omega)]
      cases hdr : E.draw m s with
      | none => rw [hdr] at h3; cases h3
      | some l =>
        rw [hdr] at h3
        simp only at h3 ⊢
        rw [← h3, pickAt_ints fun i hi => by have := hd m s l hdr i hi; omega]
        rfl

end Jarl

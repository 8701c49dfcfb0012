import Verif.Props.RValueSort
/-!
# C79: fixes keep what the code computes (patterns, strings)
-/
namespace Jarl
open Spec

/-! ### fixed_regex -/

theorem literal_inner {s b : Str} (h : literal s = some b) : ∀ c ∈ b, c ∈ s := by
  cases s with
  | nil => cases h
  | cons q rest =>
    simp only [literal] at h
    split at h
    · cases h
      intro c hc
      exact List.mem_cons_of_mem _ (List.dropLast_subset _ hc)
    · cases h

/-- Without `fixed = TRUE`, two arguments. -/
theorem withFixed_two {f : Bool → List Value → Res} {as : Args} {v : Value} (hn : ∀ a ∈ as, a.1 ≠ some (cs! "fixed")) (h : withFixed f as = .val v) :
    withParams [cs! "pattern", cs! "x"] (f false) as = .val v := by
  unfold withFixed at h
  split at h
  · rename_i a b n p
    exfalso
    have := hn (some n, .val (.lgl [(p, some true)])) (by simp)
    split at h
    · rename_i he; exact this (by rw [he])
    · cases h
  · exact h

theorem value_fixed_regex {E : Env} {f : Node} {as : List Node} {name s : Str} {f' : Bool → List Value → Res}
    (hf' : (name = cs! "grepl" ∧ f' = greplV E) ∨ (name = cs! "grep" ∧ f' = grepV E)) (hf : headName f = some name) (hfx : ∀ a ∈ as, nameOf a ≠ some (cs! "fixed"))
    (hp : matchArg [cs! "pattern", cs! "x"] as (cs! "pattern") = some (.atom .none .str s)) (hs : ∀ c ∈ s, c ∉ metaChars) (ha : ∀ a ∈ as, isArg a = true)
    (hre : ∀ p t, (∀ c ∈ p, c ∉ metaChars) → E.regex p t = contains p t) {v : Value} (h : eval E (callOf f as) = .val v) :
    eval E (fn name (as ++ [.named .none .id (cs! "fixed") .none (.atom .none .true (cs! "TRUE"))])) = .val v := by
  have hcall : ∀ as w, callV E name as w = withFixed f' as := by rcases hf' with ⟨rfl, rfl⟩ | ⟨rfl, rfl⟩ <;> intro as w <;> rfl
  rw [eval_callOf hf, hcall, rawArgs_args ha (matchArg_hole hp)] at h
  have h2 := withFixed_two (by
    intro a hm
    obtain ⟨b, hb, rfl⟩ := List.mem_map.mp hm
    exact hfx b hb) h
  have hl : as.length = 2 := by
    unfold withParams at h2
    split at h2
    · rename_i hl; simpa [evalArgs] using hl
    · cases h2
  rw [eval_fn, hcall, rawArgs_args (by
    intro a hm
    rcases List.mem_append.mp hm with hm | hm
    · exact ha a hm
    · simp only [List.mem_singleton] at hm; subst hm; rfl) (by
    intro e
    have := congrArg List.length e
    simp [hl] at this)]
  match as, hl with
  | [a, b], _ =>
    have e : evalArgs E ([a, b] ++ [.named .none .id (cs! "fixed") .none (.atom .none .true (cs! "TRUE"))]) = evalArgs E [a, b] ++ [(some (cs! "fixed"), .val (.lgl [([], some true)]))] := rfl
    rw [e]
    show withParams [cs! "pattern", cs! "x"] (f' true) (evalArgs E [a, b]) = .val v
    unfold withParams at h2 ⊢
    rw [if_pos (show (evalArgs E [a, b]).length = [cs! "pattern", cs! "x"].length from rfl)] at h2 ⊢
    simp only [List.map_cons, List.map_nil, passed_matchArg hp] at h2 ⊢
    obtain ⟨p, h3, h4⟩ := bind_val (show (eval E (.atom .none .str s)).bind _ = .val v from h2)
    have hpat : ∃ body, p = .str (plain [some body]) ∧ ∀ c ∈ body, c ∉ metaChars := by
      simp only [eval, evalBoth, atomV] at h3
      split at h3
      · rename_i body hb
        cases h3
        exact ⟨body, rfl, fun c hc => hs c (literal_inner hb c hc)⟩
      · cases h3
    obtain ⟨body, rfl, hbody⟩ := hpat
    have hm : matcher E false body = matcher E true body := by funext t; simp [matcher, hre body t hbody]
    have hff : ∀ x, f' false [.str (plain [some body]), x] = f' true [.str (plain [some body]), x] := by
      intro x
      rcases hf' with ⟨_, rfl⟩ | ⟨_, rfl⟩
      · show greplV E false [.str [([], some body)], x] = greplV E true [.str [([], some body)], x]
        simp only [greplV, hm]
      · show grepV E false [.str [([], some body)], x] = grepV E true [.str [([], some body)], x]
        simp only [grepV, hm]
    simp only [collect, h3, Res.bind]
    rw [← h4]
    cases passed [cs! "pattern", cs! "x"] (evalArgs E [a, b]) (cs! "x") with
    | none => rfl
    | some r => cases r <;> simp [collect, Res.bind, hff]

/-! ### string_boundary -/

theorem takeWhile_all {p : α → Bool} {l : List α} (h : ∀ x ∈ l, p x = true) : l.takeWhile p = l := by
  induction l with
  | nil => rfl
  | cons a l ih => rw [List.takeWhile_cons, h a (List.mem_cons_self ..), if_pos rfl, ih fun x hx => h x (List.mem_cons_of_mem _ hx)]

theorem eval_digits {E : Env} {k : Nat} {n : Node} (h : ∃ kind, n = .atom .none kind (Nat.toDigits 10 k)) {v : Value} (hv : eval E n = .val v) : numbers v = some (plain [.num (k : Rat)]) := by
  obtain ⟨kind, rfl⟩ := h
  have hd : ∀ c ∈ Nat.toDigits 10 k, c.isDigit = true := fun c hc => by
    have := Nat.isDigit_of_mem_toDigits (by decide) (by decide) hc
    simpa [Char.isDigit, Char.le_def] using this
  have hne : Nat.toDigits 10 k ≠ [] := Nat.toDigits_ne_nil
  have hval : value (Nat.toDigits 10 k) = k := by
    have := @Nat.ofDigitChars_ten_toDigits k
    rw [Nat.ofDigitChars_eq_foldl] at this
    exact this
  generalize Nat.toDigits 10 k = D at *
  have htw : D.takeWhile Char.isDigit = D := takeWhile_all hd
  have hdec : plainDecimal D = some (k : Rat) := by
    unfold plainDecimal
    rw [htw]
    simp only [List.drop_length]
    rw [if_neg (by simpa using hne), hval]
  have hfil : D.filter (· ≠ 'L') = D := List.filter_eq_self.mpr fun c hc => by
    have := hd c hc
    simp only [ne_eq, decide_not, Bool.not_eq_eq_eq_not, Bool.not_true, decide_eq_false_iff_not]
    rintro rfl
    exact absurd this (by decide)
  obtain ⟨d, D', rfl⟩ : ∃ d D', D = d :: D' := List.exists_cons_of_ne_nil hne
  have hdd : d.isDigit = true := hd d (by simp)
  have hhead : ((d :: D').head?).any Char.isDigit = true := by simpa using hdd
  have hlit : literal (d :: D') = none := by
    simp only [literal]
    rw [if_neg]
    rintro ⟨h | h, _⟩ <;> subst h <;> exact absurd hdd (by decide)
  have hno : ∀ (c : Char) (r : Str), c.isDigit = false → d :: D' ≠ c :: r := by
    intro c r hc e
    cases e
    rw [hc] at hdd
    cases hdd
  simp only [eval, evalBoth] at hv
  unfold atomV at hv
  have n1 := hno 'T' (cs! "RUE") (by decide)
  have n2 := hno 'F' (cs! "ALSE") (by decide)
  have n3 := hno 'N' (cs! "ULL") (by decide)
  have n4 := hno 'N' (cs! "aN") (by decide)
  have n5 := hno 'N' (cs! "A") (by decide)
  have n6 := hno 'N' (cs! "A_character_") (by decide)
  have n7 := hno 'N' (cs! "A_integer_") (by decide)
  have n8 := hno 'N' (cs! "A_real_") (by decide)
  have n9 := hno 'l' (cs! "ength") (by decide)
  cases kind <;> simp only [n1, n2, n3, n4, n5, n6, n7, n8, n9, if_false, hlit, hdec, hfil, hhead, if_true, and_false, reduceCtorEq] at hv
  · simp at hv; subst hv; rfl
  · cases hv; rfl

theorem eval_unit {E : Env} {n : Node} (h : ∃ q ∈ [(AKind.int, cs! "1"), (.int, cs! "1L"), (.int, cs! "1l"), (.double, cs! "1"), (.double, cs! "1.0"), (.double, cs! "1.")], n = .atom .none q.1 q.2)
    {v : Value} (hv : eval E n = .val v) : numbers v = some (plain [.num 1]) := by
  obtain ⟨q, hq, rfl⟩ := h
  simp only [List.mem_cons, List.not_mem_nil, or_false] at hq
  rcases hq with rfl | rfl | rfl | rfl | rfl | rfl
  · have : plainDecimal ((cs! "1").filter (· ≠ 'L')) = some 1 := by rfl
    simp only [eval, evalBoth, atomV, this] at hv
    cases hv; rfl
  · have : plainDecimal ((cs! "1L").filter (· ≠ 'L')) = some 1 := by rfl
    simp only [eval, evalBoth, atomV, this] at hv
    cases hv; rfl
  · have : plainDecimal ((cs! "1l").filter (· ≠ 'L')) = none := by rfl
    simp only [eval, evalBoth, atomV, this, reduceCtorEq] at hv
  · have : plainDecimal (cs! "1") = some 1 := by rfl
    simp only [eval, evalBoth, atomV, this] at hv
    cases hv; rfl
  · have : plainDecimal (cs! "1.0") = some 1 := by decide +kernel
    simp only [eval, evalBoth, atomV, this] at hv
    cases hv; rfl
  · have : plainDecimal (cs! "1.") = some 1 := by decide +kernel
    simp only [eval, evalBoth, atomV, this] at hv
    cases hv; rfl

theorem take_eq_prefix {p s : Str} : (cut s 1 p.length = p) ↔ List.isPrefixOf p s = true := by
  simp only [cut, Int.toNat_natCast, Int.sub_self, Int.toNat_zero, List.drop_zero, List.isPrefixOf_iff_prefix]
  constructor
  · intro h; rw [← h]; exact List.take_prefix _ _
  · intro h; exact (List.prefix_iff_eq_take.mp h).symm

theorem drop_eq_suffix {p s : Str} : (cut s ((s.length : Int) - p.length + 1) s.length = p) ↔ List.isSuffixOf p s = true := by
  have e : ((s.length : Int) - p.length + 1 - 1).toNat = s.length - p.length := by omega
  simp only [cut, e, Int.toNat_natCast, List.take_length, List.isSuffixOf_iff_suffix]
  constructor
  · intro h; rw [← h]; exact List.drop_suffix _ _
  · intro h; exact (List.suffix_iff_eq_drop.mp h).symm

theorem isArg_valueOf {x : Node} (h : valueOf x = some x) : isArg x = true ∧ nameOf x = none := by
  cases x <;> first | exact ⟨rfl, rfl⟩ | (cases h; done) | skip
  rename_i g k s g2 e
  exfalso
  cases e <;> simp [valueOf] at h
  have := congrArg sizeOf h.2.2.2.2
  simp at this

/-- What is cut from each element. -/
theorem substr_val {v : Vec (Option Str)} {a b : Value} {l m : Vec Dbl} (ha : numbers a = some l) (hb : numbers b = some m) {A B : Option Str → Option Int}
    (hA : ∀ i (hi : i < v.length), placeAt l i = some (A v[i].2)) (hB : ∀ i (hi : i < v.length), placeAt m i = some (B v[i].2)) :
    substrV [.str v, a, b] = .val (.str (each (fun o => o.bind fun s => (A o).bind fun i => (B o).map fun j => cut s i j) v)) := by
  have e : v.zipIdx.map (cutAt l m) = v.map (fun x => some (x.1, x.2.bind fun s => (A x.2).bind fun i => (B x.2).map fun j => cut s i j)) := by
    apply List.ext_getElem
    · simp
    · intro i h1 h2
      simp only [List.length_map] at h2
      simp [cutAt, hA i h2, hB i h2]
  simp only [substrV, ha, hb, e]
  rw [if_pos (by simp)]
  rw [List.filterMap_map]
  congr 2
  exact congrFun List.filterMap_eq_map' v

theorem placeAt_one {n : Int} {i : Nat} : placeAt (plain [.num (n : Rat)]) i = some (some n) := by
  simp [placeAt, plain, Nat.mod_one]

/-- A string without backslashes. -/
theorem eval_quoted {E : Env} {body : Str} (h : '\\' ∉ body) : eval E (.atom .none .str (['"'] ++ body ++ ['"'])) = .val (.str (plain [some body])) := by
  have : literal (['"'] ++ body ++ ['"']) = some body := by
    simp [literal, h]
  simp only [eval, evalBoth, atomV, this]

theorem eval_notIf_compare {E : Env} {o : Op} (ho : o = .eq2 ∨ o = .ne) {e : Node} {v : Vec (Option Str)} {body : Str} {F : Option Str → Option Str} {G : Option Str → Option Bool}
    (hFG : ∀ x, compareStr E .eq2 (F x) (some body) = G x) (hn : hasNames v = false) (he : eval E e = .val (.lgl (plain ((elems v).map G)))) {w : Value} {a b : Value}
    (hab : (a = .str (each F v) ∧ b = .str (plain [some body])) ∨ (a = .str (plain [some body]) ∧ b = .str (each F v))) (h : compareV E o a b = .val w) :
    eval E (notIf (o = .ne) e) = .val w := by
  have hsym : ∀ p q, compareStr E o p q = compareStr E o q p := by
    intro p q
    cases p <;> cases q <;> try rfl
    rcases ho with rfl | rfl <;> simp [compareStr, compare3, eq_comm]
  have hw : w = .lgl (each (fun x => compareStr E o (F x) (some body)) v) := by
    rcases hab with ⟨rfl, rfl⟩ | ⟨rfl, rfl⟩
    · have : compareV E o (.str (each F v)) (.str (plain [some body])) = .val (.lgl (recycled (compareStr E o) (each F v) (plain [some body]))) := rfl
      rw [this, recycle_right, each_each] at h
      cases h; rfl
    · have : compareV E o (.str (plain [some body])) (.str (each F v)) = .val (.lgl (recycled (compareStr E o) (plain [some body]) (each F v))) := rfl
      rw [this, recycle_left, each_each] at h
      cases h
      congr 1
      exact each_congr fun x _ => hsym _ _
  rw [eval_notIf, he, hw, ← plain_elems (v := each _ v) (by rw [hasNames_each]; exact hn), elems_each]
  rcases ho with rfl | rfl
  · simp only [reduceCtorEq, decide_false, Bool.false_eq_true, if_false]
    congr 3
    exact List.map_congr_left fun x _ => (hFG x).symm
  · simp only [decide_true, if_true]
    show Res.val (.lgl (each not3 _)) = _
    rw [each_plain, List.map_map]
    congr 3
    refine List.map_congr_left fun x _ => ?_
    show not3 (G x) = _
    rw [← hFG x]
    exact compareStr_opposite .eq _ _

theorem value_string_start {E : Env} {l r f x one stop s : Node} {o : Op} (hf : headName f = some (cs! "substr")) (hx : valueOf x = some x) (hs : StartOf one stop s)
    (hlr : (l = callOf f [x, one, stop] ∧ r = s) ∨ (l = s ∧ r = callOf f [x, one, stop])) (ho : o = .eq2 ∨ o = .ne)
    (hn : ∀ v, eval E x = .val (.str v) → hasNames v = false) {w : Value} (h : eval E (.bin l .none o r) = .val w) :
    eval E (notIf (o = .ne) (fn (cs! "startsWith") [x, s])) = .val w := by
  obtain ⟨hone, body, rfl, hb, k, rfl, hk⟩ := hs
  have hbin : ∀ w, binV E w o (eval E l) (eval E r) = (eval E l).bind fun a => (eval E r).bind fun b => compareV E o a b := by
    intro w; rcases ho with rfl | rfl <;> rfl
  rw [eval_bin, hbin] at h
  obtain ⟨a, e1, h2⟩ := bind_val h
  obtain ⟨b, e2, h3⟩ := bind_val h2
  have hq : eval E (.atom .none .str (['"'] ++ body ++ ['"'])) = .val (.str (plain [some body])) := eval_quoted hb
  have key : ∀ a, eval E (callOf f [x, one, .atom .none k (Nat.toDigits 10 body.length)]) = .val a → ∃ v, eval E x = .val (.str v) ∧ a = .str (each (Option.map (cut · 1 body.length)) v) := by
    intro a h
    obtain ⟨hxa, hxn⟩ := isArg_valueOf hx
    obtain ⟨q, _, rfl⟩ := id hone
    rw [eval_callOf hf, rawArgs_args (by intro y hy; simp only [List.mem_cons, List.not_mem_nil, or_false] at hy; rcases hy with rfl | rfl | rfl <;> first | exact hxa | rfl) (by simp)] at h
    replace h : withParams [cs! "x", cs! "start", cs! "stop"] substrV [(nameOf x, match valueOf x with | some e => eval E e | none => .unknown), (none, eval E (.atom .none q.1 q.2)),
      (none, eval E (.atom .none k (Nat.toDigits 10 body.length)))] = .val a := h
    rw [hx, hxn] at h
    replace h : (eval E x).bind (fun p => (eval E (.atom .none q.1 q.2)).bind fun i => (eval E (.atom .none k (Nat.toDigits 10 body.length))).bind fun j => substrV [p, i, j]) = .val a := h
    obtain ⟨p, g1, h4⟩ := bind_val h
    obtain ⟨i, g2, h5⟩ := bind_val h4
    obtain ⟨j, g3, h6⟩ := bind_val h5
    have n1 := eval_unit hone g2
    have n2 := eval_digits ⟨k, rfl⟩ g3
    cases p <;> first | (cases h6; done) | skip
    rename_i v
    refine ⟨v, g1, ?_⟩
    rw [substr_val n1 n2 (A := fun _ => some 1) (B := fun _ => some (body.length : Int)) (fun i _ => placeAt_one (n := 1)) (fun i _ => placeAt_one (n := body.length))] at h6
    cases h6
    congr 1
    exact each_congr fun y _ => by cases y.2 <;> rfl
  have hab : ∃ v, eval E x = .val (.str v) ∧ ((a = .str (each (Option.map (cut · 1 body.length)) v) ∧ b = .str (plain [some body])) ∨ (a = .str (plain [some body]) ∧ b = .str (each (Option.map (cut · 1 body.length)) v))) := by
    rcases hlr with ⟨rfl, rfl⟩ | ⟨rfl, rfl⟩
    · obtain ⟨v, h4, h5⟩ := key a e1
      rw [hq] at e2
      exact ⟨v, h4, Or.inl ⟨h5, (Res.val.inj e2).symm⟩⟩
    · obtain ⟨v, h4, h5⟩ := key b e2
      rw [hq] at e1
      exact ⟨v, h4, Or.inr ⟨(Res.val.inj e1).symm, h5⟩⟩
  obtain ⟨v, h4, h5⟩ := hab
  refine eval_notIf_compare ho (G := fun x => x.map fun x => List.isPrefixOf body x) ?_ (hn v h4) ?_ h5 h3
  · intro y
    cases y with
    | none => rfl
    | some t =>
      simp only [Option.map_some, compareStr, compare3, if_true, true_or, Option.some.injEq]
      rw [Bool.eq_iff_iff, decide_eq_true_iff]
      exact take_eq_prefix
  · rw [eval_fn, rawArgs_two h4 hq]
    show boundaryV List.isPrefixOf [.str v, .str (plain [some body])] = _
    simp only [boundaryV, plain, List.map_cons, List.map_nil]
    congr 3
    refine List.map_congr_left fun y _ => ?_
    cases y <;> rfl

theorem addV_each {v : Vec α} {x y : Value} {minus : Bool} {p q : α → Dbl} {c : Rat} (hx : numbers x = some (each p v)) (hy : numbers y = some (plain [.num c]))
    (h : ∀ a, addNum minus (p a) (.num c) = some (q a)) : addV minus x y = .val (.dbl (each q v)) := by
  have e : recycled (addNum minus) (each p v) (plain [.num c]) = each (fun a => some (q a)) v := by
    rw [recycle_right, each_each]
    exact each_congr fun z _ => h z.2
  simp only [addV, hx, hy, e]
  rw [if_pos (by simp [each])]
  unfold each
  rw [List.filterMap_map]
  congr 2
  exact congrFun List.filterMap_eq_map' v

/-- The places in each string. -/
def lenOf (c : Int) (o : Option Str) : Dbl := match o with
  | some s => .num (((s.length : Int) + c : Int) : Rat)
  | none => .na

theorem lenOf_add {c d : Int} {o : Option Str} : addNum false (lenOf c o) (.num (d : Rat)) = some (lenOf (c + d) o) ∧ addNum true (lenOf c o) (.num (d : Rat)) = some (lenOf (c - d) o) := by
  cases o with
  | none => exact ⟨rfl, rfl⟩
  | some s =>
    simp only [lenOf, addNum, Bool.false_eq_true, if_false, if_true, Option.some.injEq, Dbl.num.injEq, ← Rat.intCast_add, ← Rat.intCast_sub]
    constructor <;> congr 1 <;> omega

theorem placeAt_len {v : Vec (Option Str)} {c : Int} {i : Nat} (hi : i < v.length) : placeAt (each (lenOf c) v) i = some (v[i].2.map fun s => (s.length : Int) + c) := by
  have hl : (each (lenOf c) v).length = v.length := by simp [each]
  unfold placeAt
  rw [hl, Nat.mod_eq_of_lt hi]
  have : (each (lenOf c) v)[i]? = some (v[i].1, lenOf c v[i].2) := by simp [each, hi]
  rw [this]
  cases h : v[i].2 with
  | none => simp [lenOf]
  | some s => simp only [lenOf, Option.bind_some, Rat.den_intCast, Rat.num_intCast, if_true, Option.map_some]

theorem nchar_len {v : Vec (Option Str)} : ∃ n, ncharV (.str v) = .val n ∧ numbers n = some (each (lenOf 0) v) := by
  refine ⟨_, rfl, ?_⟩
  simp only [numbers, each_each, Option.some.injEq]
  exact each_congr fun y _ => by cases y.2 <;> simp [lenOf, ofInt]

theorem eval_nchar {E : Env} {g x : Node} (hg : headName g = some (cs! "nchar")) {v : Vec (Option Str)} (hx : eval E x = .val (.str v)) :
    ∃ n, eval E (callOf g [x]) = .val n ∧ numbers n = some (each (lenOf 0) v) := by
  obtain ⟨n, h1, h2⟩ := nchar_len (v := v)
  refine ⟨n, ?_, h2⟩
  rw [eval_callOf hg, rawArgs_one hx, ← h1]
  rfl

theorem value_string_end {E : Env} {l r f x start stop s : Node} {o : Op} {body : Str} (hs : s = .atom .none .str (['"'] ++ body ++ ['"'])) (hb : '\\' ∉ body) (hf : headName f = some (cs! "substr")) (hx : valueOf x = some x)
    {g g' g'' : Node} {k : AKind} (hg : headName g = some (cs! "nchar")) (hg' : headName g' = some (cs! "nchar")) (hg'' : headName g'' = some (cs! "nchar")) (hstop : stop = callOf g [x])
    (hstart : start = .bin (.bin (callOf g' [x]) .none .minus (callOf g'' [s])) .none .plus (.atom .none k (cs! "1")))
    (hlr : (l = callOf f [x, start, stop] ∧ r = s) ∨ (l = s ∧ r = callOf f [x, start, stop])) (ho : o = .eq2 ∨ o = .ne)
    (hn : ∀ v, eval E x = .val (.str v) → hasNames v = false) {w : Value} (h : eval E (.bin l .none o r) = .val w) :
    eval E (notIf (o = .ne) (fn (cs! "endsWith") [x, s])) = .val w := by
  have hbin : ∀ w, binV E w o (eval E l) (eval E r) = (eval E l).bind fun a => (eval E r).bind fun b => compareV E o a b := by
    intro w; rcases ho with rfl | rfl <;> rfl
  rw [eval_bin, hbin] at h
  obtain ⟨a, e1, h2⟩ := bind_val h
  obtain ⟨b, e2, h3⟩ := bind_val h2
  have hq : eval E s = .val (.str (plain [some body])) := by rw [hs]; exact eval_quoted hb
  have key : ∀ a, eval E (callOf f [x, start, stop]) = .val a →
      ∃ v, eval E x = .val (.str v) ∧ a = .str (each (Option.map (fun t : Str => cut t ((t.length : Int) - body.length + 1) t.length)) v) := by
    intro a h
    obtain ⟨hxa, hxn⟩ := isArg_valueOf hx
    rw [eval_callOf hf, rawArgs_args (by
      intro y hy; simp only [List.mem_cons, List.not_mem_nil, or_false] at hy
      rcases hy with rfl | rfl | rfl
      · exact hxa
      · rw [hstart]; rfl
      · rw [hstop]; rfl) (by simp)] at h
    have ev : evalArgs E [x, start, stop] = [(none, eval E x), (none, eval E start), (none, eval E stop)] := by
      simp only [evalArgs, List.map_cons, List.map_nil, hx, hxn]
      rw [hstart, hstop]
      rfl
    rw [ev] at h
    replace h : (eval E x).bind (fun p => (eval E start).bind fun i => (eval E stop).bind fun j => substrV [p, i, j]) = .val a := h
    obtain ⟨p, g1, h4⟩ := bind_val h
    obtain ⟨i, g2, h5⟩ := bind_val h4
    obtain ⟨j, g3, h6⟩ := bind_val h5
    cases p <;> first | (cases h6; done) | skip
    rename_i v
    obtain ⟨n, m1, m2⟩ := eval_nchar (E := E) hg g1
    obtain ⟨n', m1', m2'⟩ := eval_nchar (E := E) hg' g1
    obtain ⟨n'', m1'', m2''⟩ := eval_nchar (E := E) hg'' hq
    rw [hstop, m1] at g3
    cases g3
    rw [hstart, eval_bin] at g2
    replace g2 : (eval E (.bin (callOf g' [x]) .none .minus (callOf g'' [s]))).bind (fun a => (eval E (.atom .none k (cs! "1"))).bind fun b => addV false a b) = .val i := g2
    rw [eval_bin] at g2
    replace g2 : ((eval E (callOf g' [x])).bind (fun a => (eval E (callOf g'' [s])).bind fun b => addV true a b)).bind (fun a => (eval E (.atom .none k (cs! "1"))).bind fun b => addV false a b) = .val i := g2
    have hm : numbers n'' = some (plain [.num ((body.length : Int) : Rat)]) := by rw [m2'']; simp [each, plain, lenOf]
    rw [m1', m1''] at g2
    have hminus : addV true n' n'' = .val (.dbl (each (lenOf (0 - (body.length : Int))) v)) := addV_each m2' hm fun o => lenOf_add.2
    simp only [Res.bind, hminus] at g2
    obtain ⟨u, g4, g5⟩ := bind_val (show (eval E (.atom .none k (cs! "1"))).bind _ = .val i from g2)
    have hu : numbers u = some (plain [.num ((1 : Int) : Rat)]) := by
      have := eval_digits (k := 1) ⟨k, by rfl⟩ g4
      simpa using this
    have hplus : addV false (.dbl (each (lenOf (0 - (body.length : Int))) v)) u = .val (.dbl (each (lenOf (0 - (body.length : Int) + 1)) v)) := addV_each rfl hu fun o => lenOf_add.1
    rw [hplus] at g5
    cases g5
    refine ⟨v, g1, ?_⟩
    rw [substr_val (l := each (lenOf (0 - (body.length : Int) + 1)) v) rfl m2 (A := fun o => o.map fun s => (s.length : Int) + (0 - (body.length : Int) + 1)) (B := fun o => o.map fun s => (s.length : Int) + 0) (fun i hi => placeAt_len hi) (fun i hi => placeAt_len hi)] at h6
    cases h6
    congr 1
    refine each_congr fun y _ => ?_
    cases y.2 with
    | none => rfl
    | some t =>
      simp only [Option.bind_some, Option.map_some, Option.some.injEq, Int.add_zero]
      congr 1
      omega
  have hab : ∃ v, eval E x = .val (.str v) ∧ ((a = .str (each (Option.map (fun t : Str => cut t ((t.length : Int) - body.length + 1) t.length)) v) ∧ b = .str (plain [some body])) ∨
      (a = .str (plain [some body]) ∧ b = .str (each (Option.map (fun t : Str => cut t ((t.length : Int) - body.length + 1) t.length)) v))) := by
    rcases hlr with ⟨rfl, rfl⟩ | ⟨rfl, rfl⟩
    · obtain ⟨v, h4, h5⟩ := key a e1
      rw [hq] at e2
      exact ⟨v, h4, Or.inl ⟨h5, (Res.val.inj e2).symm⟩⟩
    · obtain ⟨v, h4, h5⟩ := key b e2
      rw [hq] at e1
      exact ⟨v, h4, Or.inr ⟨(Res.val.inj e1).symm, h5⟩⟩
  obtain ⟨v, h4, h5⟩ := hab
  refine eval_notIf_compare ho (G := fun x => x.map fun x => List.isSuffixOf body x) ?_ (hn v h4) ?_ h5 h3
  · intro y
    cases y with
    | none => rfl
    | some t =>
      simp only [Option.map_some, compareStr, compare3, if_true, true_or, Option.some.injEq]
      rw [Bool.eq_iff_iff, decide_eq_true_iff]
      exact drop_eq_suffix
  · rw [eval_fn, rawArgs_two h4 hq]
    show boundaryV List.isSuffixOf [.str v, .str (plain [some body])] = _
    simp only [boundaryV, plain, List.map_cons, List.map_nil]
    congr 3
    refine List.map_congr_left fun y _ => ?_
    cases y <;> rfl

end Jarl

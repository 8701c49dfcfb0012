import Verif.Props.RReportsNum
/-!
# C55: conditions that are always true, and `&` and `|` in conditions
-/
namespace Jarl
open Spec

/-- All elements are `b` or missing. -/
def Only (b : Bool) (v : Val) : Prop := ∃ xs, v = .vec xs ∧ ∀ x ∈ xs, x = some b ∨ x = none

theorem mem_recycle {f xs ys x} (h : x ∈ recycle f xs ys) : ∃ a ∈ xs, ∃ b ∈ ys, x = f a b := by
  rw [recycle] at h
  split at h
  next => cases h
  next hne =>
    simp only [not_or] at hne
    obtain ⟨i, -, rfl⟩ := List.mem_map.mp h
    have h1 : i % xs.length < xs.length := Nat.mod_lt _ (List.length_pos_iff.mpr hne.1)
    have h2 : i % ys.length < ys.length := Nat.mod_lt _ (List.length_pos_iff.mpr hne.2)
    exact ⟨xs[i % xs.length], List.getElem_mem _, ys[i % ys.length], List.getElem_mem _, by rw [List.getElem?_eq_getElem h1, List.getElem?_eq_getElem h2]; rfl⟩

theorem single_mem {xs x} (h : single xs = some x) : x = none ∨ x ∈ xs := by
  match xs, h with
  | [], h => injection h with h; exact Or.inl h.symm
  | [a], h => injection h with h; exact Or.inr (by simp [h])

theorem or3_only {a c : Option Bool} {l r : Option Bool} {b} (h : orConst l r = some b)
    (ha : ∀ d, l = some d → a = some d ∨ a = none) (hc : ∀ d, r = some d → c = some d ∨ c = none) : triOr a c = some b ∨ triOr a c = none := by
  rw [orConst] at h
  split at h
  next hlr =>
    injection h with h; subst h
    rcases hlr with hl | hr
    · rcases ha _ hl with rfl | rfl
      · exact Or.inl rfl
      · rcases c with _ | _ | _ <;> simp [triOr]
    · rcases hc _ hr with rfl | rfl
      · left; rcases a with _ | _ | _ <;> rfl
      · rcases a with _ | _ | _ <;> simp [triOr]
  next hlr =>
    split at h
    next hl =>
      rcases ha _ hl with rfl | rfl <;> rcases hc _ h with rfl | rfl <;> cases b <;> simp [triOr]
    next => cases h

theorem and3_only {a c : Option Bool} {l r : Option Bool} {b} (h : andConst l r = some b)
    (ha : ∀ d, l = some d → a = some d ∨ a = none) (hc : ∀ d, r = some d → c = some d ∨ c = none) : triAnd a c = some b ∨ triAnd a c = none := by
  rw [andConst] at h
  split at h
  next hlr =>
    injection h with h; subst h
    rcases hlr with hl | hr
    · rcases ha _ hl with rfl | rfl
      · exact Or.inl rfl
      · rcases c with _ | _ | _ <;> simp [triAnd]
    · rcases hc _ hr with rfl | rfl
      · left; rcases a with _ | _ | _ <;> rfl
      · rcases a with _ | _ | _ <;> simp [triAnd]
  next hlr =>
    split at h
    next hl =>
      rcases ha _ hl with rfl | rfl <;> rcases hc _ h with rfl | rfl <;> cases b <;> simp [triAnd]
    next => cases h

theorem bind_ok {α β : Type} {x : Except RuleFail α} {f : α → Except RuleFail β} {b} (h : (x >>= f) = .ok b) : ∃ a, x = .ok a ∧ f a = .ok b := by
  cases x with
  | error e => cases h
  | ok a => exact ⟨a, rfl, h⟩

theorem condConst_or {l g o r c} (ho : o = .or2 ∨ o = .or) (h : condConst (.bin l g o r) = .ok c) :
    ∃ a b, condConst l = .ok a ∧ condConst r = .ok b ∧ c = orConst a b := by
  rw [condConst, if_pos ho] at h
  obtain ⟨a, h1, h⟩ := bind_ok h
  obtain ⟨b, h2, h⟩ := bind_ok h
  cases h
  exact ⟨a, b, h1, h2, rfl⟩

theorem condConst_and {l g o r c} (ho : o = .and2 ∨ o = .and) (h : condConst (.bin l g o r) = .ok c) :
    ∃ a b, condConst l = .ok a ∧ condConst r = .ok b ∧ c = andConst a b := by
  have hn : ¬ (o = .or2 ∨ o = .or) := by rcases ho with rfl | rfl <;> simp
  rw [condConst, if_neg hn, if_pos ho] at h
  obtain ⟨a, h1, h⟩ := bind_ok h
  obtain ⟨b, h2, h⟩ := bind_ok h
  cases h
  exact ⟨a, b, h1, h2, rfl⟩

theorem condConst_int {g s c} (h : condConst (.atom g .int s) = .ok c) : ∃ b, c = some b ∧ IntLit s b ∧ decimal (stripL s) ≤ 9223372036854775807 := by
  rw [condConst] at h
  split at h
  next n hn =>
    injection h with h
    obtain ⟨hne, ha, rfl, hle⟩ := parseI64_iff.mp hn
    exact ⟨_, h.symm, intLit_iff.mpr ⟨ha, hne, by simp⟩, hle⟩
  next => cases h

theorem condConst_double {g s c} (h : condConst (.atom g .double s) = .ok c) : ∃ b, c = some b ∧ DoubleLit s b := by
  rw [condConst] at h
  split at h
  next b hb => injection h with h; exact ⟨b, h.symm, doubleLit_iff.mpr hb⟩
  next => cases h

theorem doubleLit_unique {s b b'} (h : DoubleLit s b) (h' : DoubleLit s b') : b = b' := by
  have h1 := doubleLit_iff.mp h
  rw [doubleLit_iff.mp h'] at h1
  injection h1 with h1
  exact h1.symm

/-- Where the constants are `some b`, the value is `b` or missing. -/
theorem eval_only {R : Node → Val → Prop} : ∀ {e : Node} {b v}, condConst e = .ok (some b) → Evals R e v → Only b v := by
  intro e
  induction e with
  | atom g k s =>
    intro b v h hv
    cases hv with
    | true => injection h with h; injection h with h; exact ⟨_, rfl, by simp [h]⟩
    | false => injection h with h; injection h with h; exact ⟨_, rfl, by simp [h]⟩
    | inf => injection h with h; injection h with h; exact ⟨_, rfl, by simp [h]⟩
    | na => exact ⟨_, rfl, by simp⟩
    | nan => exact ⟨_, rfl, by simp⟩
    | int hl =>
      obtain ⟨c, hc, hl', -⟩ := condConst_int h
      injection hc with hc; subst hc
      exact ⟨_, rfl, by simp [intLit_unique hl hl']⟩
    | double hl =>
      obtain ⟨c, hc, hl'⟩ := condConst_double h
      injection hc with hc; subst hc
      exact ⟨_, rfl, by simp [doubleLit_unique hl hl']⟩
    | name hk _ =>
      exfalso
      cases k <;> first | (simp at hk; done) | (cases h; done)
    | hexInt hn _ =>
      obtain ⟨c, hc, hl', -⟩ := condConst_int h
      exact absurd hl' (hn c)
    | hexDouble hn _ =>
      obtain ⟨c, hc, hl'⟩ := condConst_double h
      exact absurd hl' (hn c)
    | rest h1 => exact absurd rfl (h1 _ _ _)
  | paren g e g2 ih =>
    intro b v h hv
    cases hv with
    | paren hv => exact ih h hv
    | rest _ h1 => exact absurd rfl (h1 _ _ _)
  | un g o e ih =>
    intro b v h hv
    rw [condConst] at h
    cases hv with
    | not hv =>
      rw [if_pos rfl] at h
      cases he : condConst e with
      | error x => rw [he] at h; cases h
      | ok c =>
        rw [he] at h
        injection h with h
        cases c with
        | none => cases h
        | some c =>
          injection h with h
          obtain ⟨xs, hx, hall⟩ := ih he hv
          injection hx with hx
          subst hx
          refine ⟨_, rfl, ?_⟩
          intro x hx
          obtain ⟨y, hy, rfl⟩ := List.mem_map.mp hx
          rcases hall y hy with rfl | rfl
          · left; rw [← h]; rfl
          · right; rfl
    | plus hv =>
      rw [if_neg (by simp), if_pos (by simp)] at h
      exact ih h hv
    | minus hv =>
      rw [if_neg (by simp), if_pos (by simp)] at h
      exact ih h hv
    | unary ho _ =>
      simp only [List.mem_cons, List.not_mem_nil, or_false, not_or] at ho
      rw [if_neg ho.1, if_neg (by rintro (h | h); exact ho.2.2 h; exact ho.2.1 h)] at h
      cases h
    | rest _ _ h1 => exact absurd rfl (h1 _ _ _)
  | bin l g o r ihl ihr =>
    intro b v h hv
    cases hv with
    | or h1 h2 =>
      obtain ⟨a, c, ha, hc, hb⟩ := condConst_or (by simp) h
      refine ⟨_, rfl, fun x hx => ?_⟩
      obtain ⟨p, hp, q, hq, rfl⟩ := mem_recycle hx
      refine or3_only hb.symm ?_ ?_
      · rintro d rfl; obtain ⟨xs, hx, hall⟩ := ihl ha h1; injection hx with hx; exact hall p (hx ▸ hp)
      · rintro d rfl; obtain ⟨xs, hx, hall⟩ := ihr hc h2; injection hx with hx; exact hall q (hx ▸ hq)
    | and h1 h2 =>
      obtain ⟨a, c, ha, hc, hb⟩ := condConst_and (by simp) h
      refine ⟨_, rfl, fun x hx => ?_⟩
      obtain ⟨p, hp, q, hq, rfl⟩ := mem_recycle hx
      refine and3_only hb.symm ?_ ?_
      · rintro d rfl; obtain ⟨xs, hx, hall⟩ := ihl ha h1; injection hx with hx; exact hall p (hx ▸ hp)
      · rintro d rfl; obtain ⟨xs, hx, hall⟩ := ihr hc h2; injection hx with hx; exact hall q (hx ▸ hq)
    | or2_left h1 =>
      obtain ⟨a, c, ha, hc, hb⟩ := condConst_or (by simp) h
      refine ⟨_, rfl, fun x hx => ?_⟩
      cases List.mem_singleton.mp hx
      left
      cases b with
      | true => rfl
      | false =>
        exfalso
        have : a = some false := by
          rw [orConst] at hb
          split at hb
          next => cases hb
          next =>
            split at hb
            next h => exact h
            next => cases hb
        subst this
        obtain ⟨xs, hx, hall⟩ := ihl ha h1
        injection hx with hx
        have := hall (some true) (hx ▸ by simp)
        simp at this
    | or2 h1 s1 hne h2 s2 =>
      obtain ⟨a, c, ha, hc, hb⟩ := condConst_or (by simp) h
      refine ⟨_, rfl, fun x hx => ?_⟩
      cases List.mem_singleton.mp hx
      refine or3_only hb.symm ?_ ?_
      · rintro d rfl; obtain ⟨xs, hx, hall⟩ := ihl ha h1; injection hx with hx
        rcases single_mem s1 with h | h
        · exact Or.inr h
        · exact hall _ (hx ▸ h)
      · rintro d rfl; obtain ⟨xs, hx, hall⟩ := ihr hc h2; injection hx with hx
        rcases single_mem s2 with h | h
        · exact Or.inr h
        · exact hall _ (hx ▸ h)
    | and2_left h1 =>
      obtain ⟨a, c, ha, hc, hb⟩ := condConst_and (by simp) h
      refine ⟨_, rfl, fun x hx => ?_⟩
      cases List.mem_singleton.mp hx
      left
      cases b with
      | false => rfl
      | true =>
        exfalso
        have : a = some true := by
          rw [andConst] at hb
          split at hb
          next => cases hb
          next =>
            split at hb
            next h => exact h
            next => cases hb
        subst this
        obtain ⟨xs, hx, hall⟩ := ihl ha h1
        injection hx with hx
        have := hall (some false) (hx ▸ by simp)
        simp at this
    | and2 h1 s1 hne h2 s2 =>
      obtain ⟨a, c, ha, hc, hb⟩ := condConst_and (by simp) h
      refine ⟨_, rfl, fun x hx => ?_⟩
      cases List.mem_singleton.mp hx
      refine and3_only hb.symm ?_ ?_
      · rintro d rfl; obtain ⟨xs, hx, hall⟩ := ihl ha h1; injection hx with hx
        rcases single_mem s1 with h | h
        · exact Or.inr h
        · exact hall _ (hx ▸ h)
      · rintro d rfl; obtain ⟨xs, hx, hall⟩ := ihr hc h2; injection hx with hx
        rcases single_mem s2 with h | h
        · exact Or.inr h
        · exact hall _ (hx ▸ h)
    | binary ho _ =>
      simp only [List.mem_cons, List.not_mem_nil, or_false, not_or] at ho
      rw [condConst, if_neg (by rintro (h | h); exact ho.2.1 h; exact ho.1 h), if_neg (by rintro (h | h); exact ho.2.2.2 h; exact ho.2.2.1 h)] at h
      cases h
    | rest _ _ _ h1 => exact absurd rfl (h1 _ _ _ _)
  | _ => intro b v h; cases h

/-- A report of if_always_true is right: whatever names, calls and other operators evaluate to, if the `if` comes to a decision at all, it is for the body. -/
theorem C55_if_always_true {fs g g2 c g3 t s} (h : ifAlwaysTrue ⟨fs, .ifE g g2 c g3 t⟩ = .ok (some s)) :
    s = .ifTrue ∧ ∀ R v b, Evals R c v → decides v = some b → b = true := by
  simp only [ifAlwaysTrue] at h
  cases he : condConst c with
  | error e => rw [he] at h; cases h
  | ok d =>
    rw [he] at h
    injection h with h
    simp only at h
    split at h
    next hd =>
      injection h with h
      refine ⟨h.symm, fun R v b hv hdec => ?_⟩
      subst hd
      obtain ⟨xs, rfl, hall⟩ := eval_only he hv
      match xs, hdec, hall with
      | [x], hdec, hall =>
        rcases hall x (by simp) with rfl | rfl
        · injection hdec with hdec; exact hdec.symm
        · cases hdec
    next => cases h

theorem or3_const (a c : Option Bool) : orConst a c = triOr a c := by
  rcases a with _ | _ | _ <;> rcases c with _ | _ | _ <;> rfl

theorem and3_const (a c : Option Bool) : andConst a c = triAnd a c := by
  rcases a with _ | _ | _ <;> rcases c with _ | _ | _ <;> rfl

theorem recycle_one (f : Option Bool → Option Bool → Option Bool) (x y : Option Bool) : recycle f [x] [y] = [f x y] := by
  simp [recycle, List.range_succ]

/-- Of constants, the value is known exactly. -/
theorem eval_constant {R : Node → Val → Prop} {e : Node} (h : Constant e) : ∃ x, condConst e = .ok x ∧ Evals R e (.vec [x]) := by
  induction h with
  | @atom g k s hk =>
    simp only [List.mem_cons, List.not_mem_nil, or_false] at hk
    rcases hk with rfl | rfl | rfl | rfl | rfl
    · exact ⟨some true, rfl, .true⟩
    · exact ⟨some false, rfl, .false⟩
    · exact ⟨some true, rfl, .inf⟩
    · exact ⟨none, rfl, .na⟩
    · exact ⟨none, rfl, .nan⟩
  | @int g s b hl hle hL =>
    obtain ⟨ha, hne, hb⟩ := intLit_iff.mp hl
    have hs : stripL s = s.dropLast := if_pos hL
    refine ⟨some b, ?_, .int hl⟩
    rw [condConst, parseI64_iff.mpr ⟨hne, ha, rfl, by rw [hs]; exact hle⟩]
    congr 2
    generalize decimal (stripL s) = n at hb
    cases b <;> simp_all
  | double hl =>
    refine ⟨some _, ?_, .double hl⟩
    rw [condConst, doubleLit_iff.mp hl]
  | paren _ ih => obtain ⟨x, h1, h2⟩ := ih; exact ⟨x, h1, .paren h2⟩
  | @un g o e ho _ ih =>
    obtain ⟨x, h1, h2⟩ := ih
    simp only [List.mem_cons, List.not_mem_nil, or_false] at ho
    rcases ho with rfl | rfl | rfl
    · refine ⟨x.map (!·), ?_, .not h2⟩
      rw [condConst, if_pos rfl, h1]; rfl
    · refine ⟨x, ?_, .plus h2⟩
      rw [condConst, if_neg (by simp), if_pos (by simp), h1]
    · refine ⟨x, ?_, .minus h2⟩
      rw [condConst, if_neg (by simp), if_pos (by simp), h1]
  | @bin l g o r ho _ _ ihl ihr =>
    obtain ⟨x, h1, h2⟩ := ihl
    obtain ⟨y, h3, h4⟩ := ihr
    simp only [List.mem_cons, List.not_mem_nil, or_false] at ho
    rcases ho with rfl | rfl | rfl | rfl
    · refine ⟨triOr x y, ?_, recycle_one triOr x y ▸ .or h2 h4⟩
      rw [condConst, if_pos (by simp), h1, h3, ← or3_const]; rfl
    · refine ⟨triOr x y, ?_, ?_⟩
      · rw [condConst, if_pos (by simp), h1, h3, ← or3_const]; rfl
      · by_cases hx : x = some true
        · subst hx; exact .or2_left h2
        · exact .or2 h2 rfl hx h4 rfl
    · refine ⟨triAnd x y, ?_, recycle_one triAnd x y ▸ .and h2 h4⟩
      rw [condConst, if_neg (by simp), if_pos (by simp), h1, h3, ← and3_const]; rfl
    · refine ⟨triAnd x y, ?_, ?_⟩
      · rw [condConst, if_neg (by simp), if_pos (by simp), h1, h3, ← and3_const]; rfl
      · by_cases hx : x = some false
        · subst hx; exact .and2_left h2
        · exact .and2 h2 rfl hx h4 rfl

/-- And no constant condition that is true is missed: if the condition is made of constants, the rule does not fail, and it reports if and only if the condition can be true. -/
theorem C55_if_always_true_constants {c} (hc : Constant c) (R : Node → Val → Prop) (fs g g2 g3 t) :
    ∃ x, Evals R c (.vec [x]) ∧ ifAlwaysTrue ⟨fs, .ifE g g2 c g3 t⟩ = .ok (if decides (.vec [x]) = some true then some .ifTrue else none) := by
  obtain ⟨x, h1, h2⟩ := eval_constant (R := R) hc
  refine ⟨x, h2, ?_⟩
  simp only [ifAlwaysTrue, h1]
  rfl

/-- With `else` it says nothing. -/
theorem C55_if_else (fs g g2 c g3 t g4 e) : ifAlwaysTrue ⟨fs, .ifElse g g2 c g3 t g4 e⟩ = .ok none := rfl

/-! ## `&` and `|` -/

theorem isIfCondition_iff {fs} : isIfCondition fs = true ↔ Directly IfCond fs := by
  constructor
  · intro h
    rw [isIfCondition.eq_def] at h
    split at h
    · exact ⟨_, _, rfl, Or.inl ⟨_, _, _, _, rfl⟩⟩
    · exact ⟨_, _, rfl, Or.inr ⟨_, _, _, _, _, _, rfl⟩⟩
    · cases h
  · rintro ⟨f, fs', rfl, ⟨_, _, _, _, rfl⟩ | ⟨_, _, _, _, _, _, rfl⟩⟩ <;> rfl

theorem isWhileCondition_iff {fs} : isWhileCondition fs = true ↔ Directly WhileCond fs := by
  constructor
  · intro h
    rw [isWhileCondition.eq_def] at h
    split at h
    · exact ⟨_, _, rfl, _, _, _, _, rfl⟩
    · cases h
  · rintro ⟨f, fs', rfl, _, _, _, _, rfl⟩; rfl

theorem bitwise_false {a b : Node} : (bitwiseException a || bitwiseException b) = false ↔
    (isAtom .str a = false ∧ ∀ f ∈ [cs! "as.raw", cs! "as.octmode", cs! "as.hexmode"], calls f a = false) ∧
    (isAtom .str b = false ∧ ∀ f ∈ [cs! "as.raw", cs! "as.octmode", cs! "as.hexmode"], calls f b = false) := by
  simp only [bitwiseException, Bool.or_eq_false_iff, List.forall_mem_cons, List.not_mem_nil, false_imp_iff, implies_true, and_true]
  constructor <;> rintro ⟨⟨h1, h2⟩, ⟨h3, h4⟩⟩ <;> simp_all

theorem guard_bind {α : Type} {p : Prop} [Decidable p] {f : Unit → Option α} {a} : ((guard p : Option Unit).bind f = some a) ↔ p ∧ f () = some a := by
  by_cases h : p
  · simp [guard, h]
  · rw [guard, if_neg h]
    exact ⟨fun h' => (by cases h'), fun h' => absurd h'.1 h⟩

/-- vector_logic reports exactly `&` and `|` that are the whole condition of an `if` or `while`, without raw or similar numbers and strings. -/
theorem C55_vector_logic {z : Zip} {s} :
    vectorLogic z = some s ↔
      ∃ l g o r, z.e = .bin l g o r ∧ (o = .and ∨ o = .or) ∧ (Directly IfCond z.fs ∨ Directly WhileCond z.fs) ∧
        (∀ x, x = l ∨ x = r → isAtom .str x = false ∧ ∀ f ∈ [cs! "as.raw", cs! "as.octmode", cs! "as.hexmode"], calls f x = false) ∧
        ∃ inIf, s = .vectorLogic o inIf ∧ (inIf = true ↔ Directly IfCond z.fs) := by
  obtain ⟨fs, e⟩ := z
  cases e with
  | bin l g o r =>
    simp only [vectorLogic, asBin, Option.bind_eq_bind, Option.bind_some, guard_bind, isIfCondition_iff, isWhileCondition_iff, Bool.or_eq_true, Bool.not_eq_true', bitwise_false]
    constructor
    · rintro ⟨ho, ⟨hl, hr⟩, hc, h⟩
      injection h with h
      exact ⟨l, g, o, r, rfl, ho, hc, by rintro x (rfl | rfl) <;> assumption, _, h.symm, isIfCondition_iff⟩
    · rintro ⟨_, _, _, _, he, ho, hc, hx, b, rfl, hb⟩
      cases he
      refine ⟨ho, ⟨hx l (Or.inl rfl), hx r (Or.inr rfl)⟩, hc, ?_⟩
      rw [← isIfCondition_iff] at hb
      congr 2
      generalize isIfCondition fs = d at hb
      cases b <;> cases d <;> simp at hb <;> rfl
  | _ => simp [vectorLogic, asBin]

theorem recycle_len1 {f : Option Bool → Option Bool → Option Bool} {xs ys x} (h : recycle f xs ys = [x]) : ∃ a b, xs = [a] ∧ ys = [b] ∧ x = f a b := by
  rw [recycle] at h
  split at h
  next => cases h
  next hne =>
    simp only [not_or] at hne
    have hl := congrArg List.length h
    simp only [List.length_map, List.length_range, List.length_singleton] at hl
    have h1 := List.length_pos_iff.mpr hne.1
    have h2 := List.length_pos_iff.mpr hne.2
    have l1 : xs.length = 1 := by omega
    have l2 : ys.length = 1 := by omega
    obtain ⟨a, rfl⟩ := List.length_eq_one_iff.mp l1
    obtain ⟨b, rfl⟩ := List.length_eq_one_iff.mp l2
    refine ⟨a, b, rfl, rfl, ?_⟩
    simp [List.range_succ] at h
    exact h.symm

/-- The advice (`&&` and `||` instead) is sound: where `if (a & b)` comes to a decision, `if (a && b)` comes to the same, and so for `|`. (For logical and numeric operands.) -/
theorem C55_vector_logic_advice {R : Node → Val → Prop} {l g r v b} (hd : decides v = some b) :
    (Evals R (.bin l g .and r) v → ∃ v', Evals R (.bin l g .and2 r) v' ∧ decides v' = some b) ∧
    (Evals R (.bin l g .or r) v → ∃ v', Evals R (.bin l g .or2 r) v' ∧ decides v' = some b) := by
  constructor
  · intro h
    cases h with
    | @and _ _ _ xs ys h1 h2 =>
      match hr : recycle triAnd xs ys, hd with
      | [x], hd =>
        obtain ⟨a, c, rfl, rfl, rfl⟩ := recycle_len1 hr
        by_cases ha : a = some false
        · subst ha
          exact ⟨_, .and2_left h1, hd⟩
        · exact ⟨_, .and2 h1 rfl ha h2 rfl, hd⟩
    | binary ho => simp at ho
    | rest _ _ _ h => exact absurd rfl (h _ _ _ _)
  · intro h
    cases h with
    | @or _ _ _ xs ys h1 h2 =>
      match hr : recycle triOr xs ys, hd with
      | [x], hd =>
        obtain ⟨a, c, rfl, rfl, rfl⟩ := recycle_len1 hr
        by_cases ha : a = some true
        · subst ha
          exact ⟨_, .or2_left h1, hd⟩
        · exact ⟨_, .or2 h1 rfl ha h2 rfl, hd⟩
    | binary ho => simp at ho
    | rest _ _ _ h => exact absurd rfl (h _ _ _ _)

end Jarl

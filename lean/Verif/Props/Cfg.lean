import Verif.Lemmas.CfgAt
import Verif.Spec.Fix

/-!
# Unreachable code (`unreachable_code` rule): C37-C40
-/

namespace Jarl

open Jarl.Spec

/-- Some shorthand for the concrete cases below. -/
def exOther (a b : Nat) : Stmt := .other ⟨a, b⟩
def exRet (a b : Nat) : Stmt := .call ⟨a, b⟩ (cs! "return")
def exCond : Cond := .atom ⟨3, 4⟩

/-- `{ if (k) { return(1) } else { stop(2) }; x; y }` -/
def exBody : Stmt :=
  .braced ⟨0, 60⟩ [.ifElse ⟨2, 40⟩ (.atom ⟨6, 7⟩) (.braced ⟨9, 22⟩ [exRet 11 20]) (.braced ⟨28, 40⟩ [.call ⟨30, 38⟩ (cs! "stop")]),
    exOther 42 46, exOther 48 52]

/-- `{ for (i in z) { if (k) break; x }; if (FALSE) { a }; b; return(1); c }` -/
def exLoop : Stmt :=
  .braced ⟨0, 100⟩ [.fors ⟨2, 40⟩ (.braced ⟨14, 40⟩ [.ifThen ⟨16, 28⟩ (.atom ⟨20, 21⟩) (.brk ⟨23, 28⟩), exOther 30 31]),
    .ifThen ⟨42, 60⟩ .fls (.braced ⟨54, 60⟩ [exOther 56 57]), exOther 62 63, exRet 65 74, exOther 76 77]

/-! ## C37: reported code is never executed -/

/-- **C37** (functions).  Whatever the states, the values of the conditions and the behaviour of the
calls, no statement that starts inside a reported range is ever executed. -/
theorem C37_reported_code_never_runs (stop : List Str) (body : Stmt) (hl : Laid body)
    (hb : ¬ BareReturn (bodyList body)) (d : Diagnostic) (hd : d ∈ unreachableCode stop body) (q : Stmt)
    (hq : Executable stop (bodyList body) q) :
    ¬ (d.range.start ≤ q.range.start ∧ q.range.start < d.range.stop) := by
  unfold unreachableCode buildCfg at hd
  rw [buildStmt_body] at hd
  obtain ⟨y, hy, rfl⟩ := List.mem_map.1 hd
  have := findUnreachable_off stop (bodyList body) (laid_body hl) hb hq hy
  intro h
  have h1 : y.1.start ≤ q.range.start := h.1
  have h2 : q.range.start < y.1.stop := h.2
  rcases this with h | h <;> omega

/-- **C37** (top level of a file). -/
theorem C37_reported_top_level_code_never_runs (stop : List Str) (ss : List Stmt) (n : Nat) (hl : LaidSeq 0 n ss)
    (hb : ¬ BareReturn ss) (d : Diagnostic) (hd : d ∈ unreachableTopLevel stop ss) (q : Stmt) (hq : Executable stop ss q) :
    ¬ (d.range.start ≤ q.range.start ∧ q.range.start < d.range.stop) := by
  unfold unreachableTopLevel buildCfgTopLevel at hd
  obtain ⟨y, hy, rfl⟩ := List.mem_map.1 hd
  have := findUnreachable_off stop ss hl hb hq (List.mem_filter.1 hy).1
  intro h
  have h1 : y.1.start ≤ q.range.start := h.1
  have h2 : q.range.start < y.1.stop := h.2
  rcases this with h | h <;> omega

theorem call_leaf (a : Range) (f : Str) : ∀ r t, (∀ k, Stmt.call a f ≠ .ifThen r k t) ∧ (∀ k e, Stmt.call a f ≠ .ifElse r k t e) ∧ ¬ IsLoop (Stmt.call a f) r t :=
  fun _ _ => ⟨by simp, by simp, fun h => by cases h⟩
theorem other_leaf (a : Range) : ∀ r t, (∀ k, Stmt.other a ≠ .ifThen r k t) ∧ (∀ k e, Stmt.other a ≠ .ifElse r k t e) ∧ ¬ IsLoop (Stmt.other a) r t :=
  fun _ _ => ⟨by simp, by simp, fun h => by cases h⟩
theorem brk_leaf (a : Range) : ∀ r t, (∀ k, Stmt.brk a ≠ .ifThen r k t) ∧ (∀ k e, Stmt.brk a ≠ .ifElse r k t e) ∧ ¬ IsLoop (Stmt.brk a) r t :=
  fun _ _ => ⟨by simp, by simp, fun h => by cases h⟩

theorem not_bareReturn_exBody : ¬ BareReturn (bodyList exBody) :=
  bareReturn_append (bareReturn_ifElse (bareReturn_leaf (by simp [exRet]) (call_leaf _ _)) (bareReturn_leaf (by simp) (call_leaf _ _)))
    (bareReturn_append (bareReturn_leaf (by simp [exOther]) (other_leaf _)) (bareReturn_leaf (by simp [exOther]) (other_leaf _)))

theorem not_bareReturn_exLoop : ¬ BareReturn (bodyList exLoop) :=
  bareReturn_append (bareReturn_loop .fors (bareReturn_append (bareReturn_ifThen (bareReturn_leaf (by simp) (brk_leaf _))) (bareReturn_leaf (by simp [exOther]) (other_leaf _))))
    (bareReturn_append (bareReturn_ifThen (bareReturn_leaf (by simp [exOther]) (other_leaf _)))
    (bareReturn_append (bareReturn_leaf (by simp [exOther]) (other_leaf _)) (bareReturn_append (bareReturn_leaf (by simp [exRet]) (call_leaf _ _))
      (bareReturn_leaf (by simp [exOther]) (other_leaf _)))))

theorem not_bareBlock_exLoop : ¬ BareBlock (bodyList exLoop) :=
  bareBlock_append (bareBlock_loop .fors (bareBlock_append (bareBlock_ifThen (bareBlock_leaf (by simp) (brk_leaf _))) (bareBlock_leaf (by simp [exOther]) (other_leaf _))))
    (bareBlock_append (bareBlock_ifThen (bareBlock_leaf (by simp [exOther]) (other_leaf _)))
    (bareBlock_append (bareBlock_leaf (by simp [exOther]) (other_leaf _)) (bareBlock_append (bareBlock_leaf (by simp [exRet]) (call_leaf _ _))
      (bareBlock_leaf (by simp [exOther]) (other_leaf _)))))

/-- The hypotheses of C37 are met by a function where something is reported and something runs. -/
example : Laid exBody ∧ ¬ BareReturn (bodyList exBody) ∧ unreachableCode [cs! "stop"] exBody ≠ [] ∧
    Executable [cs! "stop"] (bodyList exBody) (exRet 11 20) := by
  refine ⟨by simp [exBody, Laid, LaidSeq, exOther, exRet, Stmt.range], not_bareReturn_exBody, by decide, ?_⟩
  refine ⟨Unit, ⟨fun _ _ _ _ => True, fun _ _ _ _ => True, fun _ _ _ _ => True, fun _ _ _ _ => True⟩, (), [], ?_⟩
  exact .inside (.ifElseTrue (s1 := ()) ⟨[some true], .atom trivial, rfl⟩ .here)

/-- The exclusion of `return` without parentheses in C37 is needed: in `function() { return; x }`, `x`
is executed (the value of `return` is the function itself) and reported. -/
theorem C37_false_bare_return : ∃ (stop : List Str) (body : Stmt) (d : Diagnostic) (q : Stmt), Laid body ∧
    d ∈ unreachableCode stop body ∧ Executable stop (bodyList body) q ∧
    d.range.start ≤ q.range.start ∧ q.range.start < d.range.stop := by
  refine ⟨[], .braced ⟨0, 20⟩ [.ret ⟨2, 8⟩, exOther 10 11], unreachableDiag (⟨10, 11⟩, .afterReturn), exOther 10 11, ?_, ?_, ?_, ?_⟩
  · simp [Laid, LaidSeq, exOther, Stmt.range]
  · decide
  · exact ⟨Unit, ⟨fun _ _ _ _ => True, fun _ _ _ _ => True, fun _ _ _ _ => True, fun _ _ _ _ => True⟩, (), [], .later .ret .here⟩
  · simp [unreachableDiag, Diagnostic.new, exOther, Stmt.range]

/-! ## C38: visibly dead code is reported -/

/-- **C38**.  Every visibly dead statement of a function is in a reported range. -/
theorem C38_dead_code_is_reported (stop : List Str) (body : Stmt) (hl : Laid body) (x : Stmt) (hx : Dead stop false (bodyList body) x) :
    ∃ d ∈ unreachableCode stop body, d.range.start ≤ x.range.start ∧ x.range.stop ≤ d.range.stop := by
  unfold unreachableCode buildCfg
  rw [buildStmt_body]
  obtain ⟨z, hz, hc⟩ := reported_dead stop (bodyList body) (laid_body hl) hx
  exact ⟨unreachableDiag z, List.mem_map.2 ⟨z, hz, rfl⟩, hc⟩

/-- The hypotheses of C38 are met: after an `if`/`else` that returns or stops, in a dead branch, and
after a `return()` that follows both a loop and a dead branch. -/
example : Laid exBody ∧ Dead [cs! "stop"] false (bodyList exBody) (exOther 48 52) := by
  refine ⟨by simp [exBody, Laid, LaidSeq, exOther, exRet, Stmt.range], ?_⟩
  refine .after (.ifElse (fun _ => .here (.jump (.ret (Or.inl ⟨rfl, by decide⟩)))) (fun _ => .here (.jump (.stop (n := cs! "stop") (Or.inl ⟨rfl, by decide⟩)
    (by simp) (by decide) (by decide) (by decide))))) (by simp)

example : Laid exLoop ∧ Dead [] false (bodyList exLoop) (.braced ⟨54, 60⟩ [exOther 56 57]) ∧ Dead [] false (bodyList exLoop) (exOther 76 77) := by
  refine ⟨by simp [exLoop, Laid, LaidSeq, exOther, exRet, Stmt.range], ?_, ?_⟩
  · exact .later (.inside (.never (by rw [can_true]; decide)))
  · exact .later (.later (.later (.after (.jump (.ret (Or.inl ⟨rfl, by decide⟩))) (by simp))))

/-! ## C39: code after a jump is reported with the message of that jump -/

/-- **C39** (functions).  When nothing visible prevents the execution of a jump (`return(...)`,
`stop(...)` or an equivalent, `break` or `next` in a loop) that is followed by statements in its
block, one diagnostic covers all of them and names that kind of jump. -/
theorem C39_code_after_jump (stop : List Str) (body : Stmt) (hl : Laid body) (m : Bool) (x : Stmt) (rest : List Stmt) (cause : Cause)
    (h : At stop false (bodyList body) m (x :: rest)) (hj : Jump stop m x cause) (hne : rest ≠ []) :
    ∃ d ∈ unreachableCode stop body, d.body = cause.message ∧
      ∀ y ∈ rest, d.range.start ≤ y.range.start ∧ y.range.stop ≤ d.range.stop := by
  unfold unreachableCode buildCfg
  rw [buildStmt_body]
  obtain ⟨z, hz, hr, hc⟩ := reported_cause stop (bodyList body) (laid_body hl) h hj hne
  exact ⟨unreachableDiag z, List.mem_map.2 ⟨z, hz, rfl⟩, by rw [← cause_message, ← hr]; rfl, hc⟩

/-- **C39** (top level of a file): the same, except after `return()`. -/
theorem C39_top_level_code_after_jump (stop : List Str) (ss : List Stmt) (n : Nat) (hl : LaidSeq 0 n ss) (m : Bool) (x : Stmt) (rest : List Stmt)
    (cause : Cause) (h : At stop false ss m (x :: rest)) (hj : Jump stop m x cause) (hne : rest ≠ []) (hc : cause ≠ .ret) :
    ∃ d ∈ unreachableTopLevel stop ss, d.body = cause.message ∧
      ∀ y ∈ rest, d.range.start ≤ y.range.start ∧ y.range.stop ≤ d.range.stop := by
  unfold unreachableTopLevel buildCfgTopLevel
  obtain ⟨z, hz, hr, hcov⟩ := reported_cause stop ss hl h hj hne
  refine ⟨unreachableDiag z, List.mem_map.2 ⟨z, List.mem_filter.2 ⟨hz, ?_⟩, rfl⟩, by rw [← cause_message, ← hr]; rfl, hcov⟩
  rw [hr]
  cases cause <;> first | rfl | exact absurd rfl hc

theorem message_ret (r : Reason) : r.message = Cause.ret.message ↔ r = .afterReturn := by cases r <;> decide
theorem message_noPath (r : Reason) : r.message = cs! "This code has no execution path from the function entry." ↔ r = .noPathFromEntry := by
  cases r <;> decide

/-- **C39** (top level against functions).  At the top level of a file exactly the same is reported as
in a function with the same statements, apart from what follows a return or has no other explanation
than being unreachable. -/
theorem C39_top_level_reports (stop : List Str) (ss : List Stmt) (r : Range) (d : Diagnostic) :
    d ∈ unreachableTopLevel stop ss ↔ d ∈ unreachableCode stop (.braced r ss) ∧ d.body ≠ Cause.ret.message ∧
      d.body ≠ cs! "This code has no execution path from the function entry." := by
  unfold unreachableTopLevel buildCfgTopLevel unreachableCode buildCfg
  rw [buildStmt_body, show bodyList (.braced r ss) = ss from rfl]
  simp only [List.mem_map, List.mem_filter]
  constructor
  · rintro ⟨z, ⟨hz, h⟩, rfl⟩
    have h := of_decide_eq_true h
    exact ⟨⟨z, hz, rfl⟩, fun h' => h.1 ((message_ret _).1 h'), fun h' => h.2 ((message_noPath _).1 h')⟩
  · rintro ⟨⟨z, hz, rfl⟩, h1, h2⟩
    exact ⟨z, ⟨hz, decide_eq_true ⟨fun h => h1 ((message_ret _).2 h), fun h => h2 ((message_noPath _).2 h)⟩⟩, rfl⟩

/-- **C39** (in terms of executions).  When a call to `return`, or to a function configured as never
returning, can be executed, what follows it in its block is reported, as being after a return or after
a stop. -/
theorem C39_code_after_executable_jump (stop : List Str) (body : Stmt) (hl : Laid body) (hb : ¬ BareReturn (bodyList body)) (hn : ¬ BareBlock (bodyList body))
    {σ : Type} (I : Interp σ) (s : σ) (r : Range) (f : Str) (name : Str) (rest : List Stmt)
    (hre : Reaches stop I (bodyList body) s (.call r f :: rest)) (hf : LastName f name) (hne : rest ≠ [])
    (hname : name = cs! "return" ∨ (name ∈ stop ∧ name ≠ cs! "return" ∧ name ≠ cs! "break" ∧ name ≠ cs! "next")) :
    ∃ d ∈ unreachableCode stop body, d.body = (if name = cs! "return" then Cause.ret else Cause.stop).message ∧
      ∀ y ∈ rest, d.range.start ≤ y.range.start ∧ y.range.stop ≤ d.range.stop := by
  obtain ⟨m, hm⟩ := reaches_at hre hb hn false
  rcases hname with rfl | ⟨h1, h2, h3, h4⟩
  · exact C39_code_after_jump stop body hl m _ rest .ret hm (.ret hf) hne
  · rw [if_neg h2]
    exact C39_code_after_jump stop body hl m _ rest .stop hm (.stop hf h1 h2 h3 h4) hne

/-- The hypotheses of C39 are met inside a loop, for a `break` followed by a statement. -/
example : ∃ body x rest, Laid body ∧ At [] false (bodyList body) true (x :: rest) ∧ Jump [] true x .brk ∧ rest ≠ [] := by
  refine ⟨.braced ⟨0, 40⟩ [exOther 1 2, .whiles ⟨3, 30⟩ (.atom ⟨10, 11⟩) (.braced ⟨13, 30⟩ [.brk ⟨14, 19⟩, exOther 21 22])],
    .brk ⟨14, 19⟩, [exOther 21 22], ?_, ?_, .brk, by simp⟩
  · simp [Laid, LaidSeq, exOther, Stmt.range]
  · exact .later (fun h => by cases h with | jump h => cases h) (.inside (.loop .whiles .here))

/-- The hypotheses of the version with executions are met. -/
example : Laid exLoop ∧ ¬ BareReturn (bodyList exLoop) ∧ ¬ BareBlock (bodyList exLoop) ∧ Reaches [] (⟨fun _ _ _ _ => True, fun _ _ _ _ => True, fun _ _ _ _ => True, fun _ _ _ _ => True⟩ : Interp Unit)
    (bodyList exLoop) () [exRet 65 74, exOther 76 77] := by
  refine ⟨by simp [exLoop, Laid, LaidSeq, exOther, exRet, Stmt.range], not_bareReturn_exLoop, not_bareBlock_exLoop, ?_⟩
  exact .later (s1 := ()) (.loopLeave .fors (.fors trivial)) (.later (s1 := ()) (.ifThenFalse ⟨[some false], .fls, rfl⟩) (.later (s1 := ()) (.other trivial) .here))

/-- The message of a dead branch may be wrong: in `{ if (FALSE) a else return(1) }`, `a` is reported
as following an `if`/`else`. -/
theorem C39_false_dead_branch_message : ∃ (body : Stmt) (k : Cond) (t e : Stmt) (r : Range) (d : Diagnostic), Laid body ∧
    bodyList body = [.ifElse r k t e] ∧ ¬ Can k true ∧ unreachableCode [] body = [d] ∧ d.range = t.range ∧
    d.body = Reason.afterBranchTerminating.message := by
  refine ⟨.braced ⟨0, 40⟩ [.ifElse ⟨2, 30⟩ .fls (exOther 13 14) (exRet 20 30)], .fls, exOther 13 14, exRet 20 30, ⟨2, 30⟩,
    unreachableDiag (⟨13, 14⟩, .afterBranchTerminating), ?_, rfl, by rw [can_true]; decide, by decide, rfl, rfl⟩
  simp [Laid, LaidSeq, exOther, exRet, Stmt.range]

/-! ## C39: the reports in order -/

theorem sorted_insertByStart {x : Range × Reason} {l : List (Range × Reason)} (h : l.Pairwise (fun a b => a.1.start ≤ b.1.start)) :
    (insertByStart x l).Pairwise (fun a b => a.1.start ≤ b.1.start) := by
  induction l with
  | nil => simp [insertByStart]
  | cons y ys ih =>
    obtain ⟨h1, h2⟩ := List.pairwise_cons.1 h
    simp only [insertByStart]
    split
    · rename_i hle
      refine List.pairwise_cons.2 ⟨fun z hz => ?_, h⟩
      rcases List.mem_cons.1 hz with rfl | hz
      · exact hle
      · exact Nat.le_trans hle (h1 z hz)
    · rename_i hle
      refine List.pairwise_cons.2 ⟨fun z hz => ?_, ih h2⟩
      rcases mem_insertByStart.1 hz with rfl | hz
      · omega
      · exact h1 z hz

theorem sorted_sortByStart (l : List (Range × Reason)) : (sortByStart l).Pairwise (fun a b => a.1.start ≤ b.1.start) := by
  unfold sortByStart
  induction l with
  | nil => simp
  | cons a l ih => exact sorted_insertByStart ih

/-- Every group begins where one of the sorted ranges begins. -/
theorem groupLoop_from : ∀ (l : List (Range × Reason)) (cur : Option (Range × Reason)) (n : Nat), (∀ c ∈ cur, n ≤ c.1.start) → (∀ x ∈ l, n ≤ x.1.start) →
    ∀ z ∈ groupLoop cur l, n ≤ z.1.start := by
  intro l
  induction l with
  | nil =>
    intro cur n hc _ z hz
    cases cur with
    | none => simp [groupLoop] at hz
    | some c => simp only [groupLoop, List.mem_singleton] at hz; subst hz; exact hc _ rfl
  | cons x xs ih =>
    intro cur n hc hl z hz
    have hx := hl x (by simp)
    have hxs : ∀ y ∈ xs, n ≤ y.1.start := fun y hy => hl y (List.mem_cons_of_mem _ hy)
    cases cur with
    | none => exact ih (some x) n (by intro c hc; cases hc; exact hx) hxs z hz
    | some c =>
      simp only [groupLoop] at hz
      have hcn := hc c rfl
      split at hz
      · refine ih _ n ?_ hxs z hz
        intro d hd; cases hd; simp only [Range.cover]; omega
      · rcases List.mem_cons.1 hz with rfl | hz
        · exact hcn
        · exact ih (some x) n (by intro d hd; cases hd; exact hx) hxs z hz

/-- The groups are in order, and two that follow each other are not to be one. -/
theorem groupLoop_order : ∀ (l : List (Range × Reason)) (cur : Option (Range × Reason)), (∀ c ∈ cur, ∀ x ∈ l, c.1.start ≤ x.1.start) →
    l.Pairwise (fun a b => a.1.start ≤ b.1.start) → (groupLoop cur l).Pairwise (fun a b => a.1.start ≤ b.1.start) := by
  intro l
  induction l with
  | nil => intro cur _ _; cases cur <;> simp [groupLoop]
  | cons x xs ih =>
    intro cur hc hl
    obtain ⟨h1, h2⟩ := List.pairwise_cons.1 hl
    have hx : ∀ c ∈ some x, ∀ y ∈ xs, c.1.start ≤ y.1.start := by intro c hc; cases hc; exact h1
    cases cur with
    | none => exact ih (some x) hx h2
    | some c =>
      have hcx := hc c rfl x (by simp)
      simp only [groupLoop]
      split
      · refine ih _ ?_ h2
        intro d hd y hy; cases hd
        simp only [Range.cover]
        have := hc c rfl y (List.mem_cons_of_mem _ hy)
        omega
      · refine List.pairwise_cons.2 ⟨fun z hz => ?_, ih _ hx h2⟩
        refine groupLoop_from xs (some x) c.1.start ?_ (fun y hy => hc c rfl y (List.mem_cons_of_mem _ hy)) z hz
        intro d hd; cases hd; exact hcx

theorem message_injective {r q : Reason} (h : r.message = q.message) : r = q := by
  revert h; cases r <;> cases q <;> decide

/-- The groups begin with `cur`, made larger at its end. -/
theorem groupLoop_head : ∀ (l : List (Range × Reason)) (c : Range × Reason), (∀ x ∈ l, c.1.start ≤ x.1.start) → l.Pairwise (fun a b => a.1.start ≤ b.1.start) →
    ∃ g gs, groupLoop (some c) l = g :: gs ∧ g.1.start = c.1.start ∧ g.2 = c.2 := by
  intro l
  induction l with
  | nil => intro c _ _; exact ⟨c, [], rfl, rfl, rfl⟩
  | cons x xs ih =>
    intro c hc hl
    obtain ⟨h1, h2⟩ := List.pairwise_cons.1 hl
    have hcx := hc x (by simp)
    simp only [groupLoop]
    split
    · obtain ⟨g, gs, e, e1, e2⟩ := ih (c.1.cover x.1, c.2) (by intro y hy; have := hc y (List.mem_cons_of_mem _ hy); simp only [Range.cover]; omega) h2
      refine ⟨g, gs, e, ?_, e2⟩
      rw [e1]; simp only [Range.cover]; omega
    · exact ⟨c, _, rfl, rfl, rfl⟩

theorem groupLoop_apart : ∀ (l : List (Range × Reason)) (c : Range × Reason), (∀ x ∈ l, c.1.start ≤ x.1.start) → l.Pairwise (fun a b => a.1.start ≤ b.1.start) →
    ∀ pre x y post, groupLoop (some c) l = pre ++ x :: y :: post → ¬ (x.2 = y.2 ∧ y.1.start = x.1.stop) := by
  intro l
  induction l with
  | nil =>
    intro c _ _ pre x y post h
    have := congrArg List.length h
    simp [groupLoop] at this
    omega
  | cons a as ih =>
    intro c hc hl pre x y post h
    obtain ⟨h1, h2⟩ := List.pairwise_cons.1 hl
    have hca := hc a (by simp)
    simp only [groupLoop] at h
    split at h
    · refine ih _ ?_ h2 pre x y post h
      intro z hz; have := hc z (List.mem_cons_of_mem _ hz); simp only [Range.cover]; omega
    · rename_i hn
      cases pre with
      | nil =>
        obtain ⟨g, gs, e, e1, e2⟩ := groupLoop_head as a h1 h2
        rw [e] at h
        simp only [List.nil_append, List.cons.injEq] at h
        obtain ⟨rfl, rfl, _⟩ := h
        rw [e1, e2]
        exact hn
      | cons p pre =>
        simp only [List.cons_append, List.cons.injEq] at h
        exact ih a h1 h2 pre x y post h.2

/-- **C39** (order). The reports are about the rule unreachable_code, without fix, in the order of the code, and code that is unreachable for one reason is in one report: two reports with the
same explanation do not follow each other directly, neither in the list nor in the code. -/
theorem C39_reports_in_order (stop : List Str) (body : Stmt) :
    (∀ d ∈ unreachableCode stop body, d.name = cs! "unreachable_code" ∧ IsPlaceholder d.fix) ∧
    (unreachableCode stop body).Pairwise (fun d e => d.range.start ≤ e.range.start) ∧
    ∀ pre d e post, unreachableCode stop body = pre ++ d :: e :: post → ¬ (d.body = e.body ∧ e.range.start = d.range.stop) := by
  have hs := sorted_sortByStart (unreachableBlocks (buildCfg stop body))
  refine ⟨?_, ?_, ?_⟩
  · intro d hd
    obtain ⟨z, _, rfl⟩ := List.mem_map.1 hd
    exact ⟨rfl, rfl, rfl, rfl⟩
  · refine List.pairwise_map.2 ?_
    exact groupLoop_order _ none (by intro c hc; cases hc) hs
  · intro pre d e post h
    unfold unreachableCode at h
    obtain ⟨l1, l2, e0, e1, e2⟩ := List.map_eq_append_iff.1 h
    obtain ⟨a, l3, rfl, rfl, e3⟩ := List.map_eq_cons_iff.1 e2
    obtain ⟨b, l4, rfl, rfl, e4⟩ := List.map_eq_cons_iff.1 e3
    unfold findUnreachable at e0
    generalize sortByStart _ = l at hs e0
    cases l with
    | nil => have := congrArg List.length e0; simp [groupLoop] at this
    | cons x xs =>
      obtain ⟨h1, h2⟩ := List.pairwise_cons.1 hs
      have := groupLoop_apart xs x h1 h2 l1 a b l4 (by rw [← e0]; rfl)
      rintro ⟨hb, hr⟩
      exact this ⟨message_injective hb, hr⟩

/-- **C39** (order, at the top level of a file). -/
theorem C39_top_level_in_order (stop : List Str) (ss : List Stmt) :
    (∀ d ∈ unreachableTopLevel stop ss, d.name = cs! "unreachable_code" ∧ IsPlaceholder d.fix) ∧ (unreachableTopLevel stop ss).Pairwise (fun d e => d.range.start ≤ e.range.start) := by
  refine ⟨?_, ?_⟩
  · intro d hd
    obtain ⟨z, _, rfl⟩ := List.mem_map.1 hd
    exact ⟨rfl, rfl, rfl, rfl⟩
  · refine List.pairwise_map.2 ?_
    exact (groupLoop_order _ none (by intro c hc; cases hc) (sorted_sortByStart _)).filter _

/-- Two reports, in order, of one body: the code behind `return(1)` and, further on, a branch that is never taken. -/
example : ((unreachableCode [] exLoop).map (fun d => (d.range.start, d.range.stop))) = [(54, 60), (76, 77)] := by decide +kernel

/-! ## C40: the functions that count as never returning -/

/-- **C40**.  With neither option the documented defaults apply, `stopping-functions` replaces them,
`extend-stopping-functions` adds to them, and giving both is an error. -/
theorem C40_stopping_functions (base extend : Option (List Str)) :
    (base.isSome ∧ extend.isSome → resolveWithExtend base extend defaultStopping = none) ∧
    (¬ (base.isSome ∧ extend.isSome) → ∃ v, resolveWithExtend base extend defaultStopping = some v ∧
      ∀ n, n ∈ v ↔ match base with
        | some b => n ∈ b
        | none => n ∈ defaultStopping ∨ ∃ e, extend = some e ∧ n ∈ e) := by
  cases base <;> cases extend <;> simp [resolveWithExtend]

end Jarl

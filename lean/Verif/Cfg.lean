import Verif.Stmt

/-!
# Control-flow graph construction and unreachable-code detection

Model of crates/jarl-core/src/lints/base/unreachable_code/: cfg/graph.rs, cfg/builder.rs,
cfg/reachability.rs and unreachable_code.rs.

Block identifiers are indices in the list of blocks.  Every identifier used by the builder is valid,
so `cfg.block(id)`, which returns an `Option` in Rust, is modelled by a lookup with the empty block
as default, and `block_mut` by an update that does nothing out of bounds.  Statements, which are
syntax nodes in Rust, are only ever used through their trimmed range, so blocks store ranges.
-/

namespace Jarl

/-- `enum Terminator` (cfg/graph.rs:43-69). -/
inductive Term
  | none | goto | ret | stop | brk | nxt | branch | loop
deriving Repr, DecidableEq

/-- `struct BasicBlock` (cfg/graph.rs:15-42). -/
structure Block where
  stmts : List Range := []
  succs : List Nat := []
  preds : List Nat := []
  term : Term := .none
  range : Option Range := none
deriving Repr, DecidableEq

/-- `struct LoopContext` (cfg/builder.rs:20-25). -/
structure LoopCtx where
  next : Nat
  brk : Nat
deriving Repr, DecidableEq

/-- The mutable state of `CfgBuilder` (cfg/builder.rs:11-17): the graph (entry is block 0, exit is
block 1, cfg/graph.rs:84-94) and the loop stack (innermost first). -/
structure CfgSt where
  blocks : List Block
  loops : List LoopCtx
deriving Repr, DecidableEq

/-- `ControlFlowGraph::new` (cfg/graph.rs:84-94) with an empty loop stack. -/
def CfgSt.init : CfgSt := ⟨[{}, {}], []⟩

/-- `block(id)` (cfg/graph.rs:96-99). -/
def CfgSt.blk (st : CfgSt) (i : Nat) : Block := st.blocks.getD i {}

/-- `block_mut(id)` followed by a mutation (cfg/graph.rs:101-104). -/
def CfgSt.upd (st : CfgSt) (i : Nat) (f : Block → Block) : CfgSt :=
  { st with blocks := st.blocks.modify i f }

/-- `new_block` (cfg/graph.rs:106-111); the new identifier is the previous number of blocks. -/
def CfgSt.newBlock (st : CfgSt) : CfgSt := { st with blocks := st.blocks ++ [{}] }

/-- `v.push(x)` unless it is already there (cfg/graph.rs:115-124). -/
def pushNew (x : Nat) (l : List Nat) : List Nat := if l.contains x then l else l ++ [x]

/-- `add_edge` (cfg/graph.rs:113-125). -/
def CfgSt.addEdge (st : CfgSt) (a b : Nat) : CfgSt :=
  (st.upd a (fun k => { k with succs := pushNew b k.succs })).upd b
    (fun k => { k with preds := pushNew a k.preds })

/-- Record `p` as predecessor of `b` without an edge (cfg/builder.rs:213-216, 347-349, 355-357,
444-448). -/
def CfgSt.addPred (st : CfgSt) (b p : Nat) : CfgSt := st.upd b (fun k => { k with preds := k.preds ++ [p] })

/-- Set the terminator of a block. -/
def CfgSt.setTerm (st : CfgSt) (b : Nat) (t : Term) : CfgSt := st.upd b (fun k => { k with term := t })

/-- `TextRange::cover`. -/
def Range.cover (a b : Range) : Range := ⟨min a.start b.start, max a.stop b.stop⟩

/-- `add_statement` (cfg/builder.rs:641-655). -/
def CfgSt.addStatement (st : CfgSt) (b : Nat) (r : Range) : CfgSt :=
  st.upd b (fun k => { k with
    stmts := k.stmts ++ [r]
    range := match k.range with
      | some q => some (q.cover r)
      | none => some r })

/-- `block.statements.push(...)` for a dead branch (cfg/builder.rs:374-376, 404-406). -/
def CfgSt.pushStatement (st : CfgSt) (b : Nat) (r : Range) : CfgSt :=
  st.upd b (fun k => { k with stmts := k.stmts ++ [r] })

/-- `evaluate_constant_condition` (cfg/builder.rs:37-116). -/
def evalConst : Cond → Option Bool
  | .tru => some true
  | .fls => some false
  | .paren c => evalConst c
  | .or a b | .or2 a b =>
    if evalConst a = some true ∨ evalConst b = some true then some true
    else if evalConst a = some false ∧ evalConst b = some false then some false
    else none
  | .and a b | .and2 a b =>
    if evalConst a = some false ∨ evalConst b = some false then some false
    else if evalConst a = some true ∧ evalConst b = some true then some true
    else none
  | .atom _ => none

/-- `has_incoming_edges` (cfg/builder.rs:132-150). -/
def CfgSt.hasIncoming (st : CfgSt) (b : Nat) : Bool :=
  b == 0 || (st.blk b).preds.any (fun p => (st.blk p).succs.contains b)

/-- The test `matches!(block.terminator, Return | Break | Next | Stop)` (cfg/builder.rs:201-206 and
elsewhere). -/
def Term.ends : Term → Bool
  | .ret | .brk | .nxt | .stop => true
  | _ => false

/-- `build_return` (cfg/builder.rs:594-600). -/
def CfgSt.buildReturn (st : CfgSt) (c : Nat) : CfgSt := st.setTerm c .ret

/-- `build_stop` (cfg/builder.rs:602-612). -/
def CfgSt.buildStop (st : CfgSt) (c : Nat) : CfgSt := st.setTerm c .stop

/-- `build_break` (cfg/builder.rs:614-624). -/
def CfgSt.buildBreak (st : CfgSt) (c : Nat) : CfgSt :=
  match st.loops with
  | l :: _ => (st.setTerm c .brk).addEdge c l.brk
  | [] => st

/-- `build_next` (cfg/builder.rs:626-636). -/
def CfgSt.buildNext (st : CfgSt) (c : Nat) : CfgSt :=
  match st.loops with
  | l :: _ => (st.setTerm c .nxt).addEdge c l.next
  | [] => st

/-- `s.rsplit_once("::").map(|(_, name)| name)`: the text after the last `::`. -/
def afterLastColons : Str → Option Str
  | [] => none
  | c :: cs =>
    match afterLastColons cs with
    | some r => some r
    | none => if c = ':' then (match cs with | ':' :: rest => some rest | _ => none) else none

/-- `fun_name` (cfg/builder.rs:279-283). -/
def funName (callee : Str) : Str := (afterLastColons callee).getD callee

/-- The `R_CALL` case of `build_statement` (cfg/builder.rs:277-300). -/
def CfgSt.buildCall (st : CfgSt) (stop : List Str) (c : Nat) (r : Range) (callee : Str) : CfgSt :=
  let name := funName callee
  if name = cs! "return" then st.buildReturn c
  else if name = cs! "break" then st.buildBreak c
  else if name = cs! "next" then st.buildNext c
  else if name ∈ stop then st.buildStop c
  else st.addStatement c r

/-- First half of `build_if_statement` (cfg/builder.rs:325-366): the three blocks (then, else, after,
numbered from the current length) and the edges out of the branching block. -/
def CfgSt.ifOpen (st : CfgSt) (c : Nat) (k : Cond) : CfgSt :=
  let n := st.blocks.length
  let st := (st.newBlock.newBlock.newBlock).setTerm c .branch
  match evalConst k with
  | some true => (st.addEdge c n).addPred (n + 1) c
  | some false => (st.addEdge c (n + 1)).addPred n c
  | none => (st.addEdge c n).addEdge c (n + 1)

/-- The end of a branch that was built normally (cfg/builder.rs:380-396, 410-428). -/
def CfgSt.closeBranch (st : CfgSt) (last after : Nat) : CfgSt :=
  if (st.blk last).term.ends = false ∧ st.hasIncoming last = true then
    (st.setTerm last .goto).addEdge last after
  else st

/-- The end of `build_if_statement` (cfg/builder.rs:440-450). -/
def CfgSt.ifEnd (st : CfgSt) (c after : Nat) : CfgSt :=
  if st.hasIncoming after = false then st.addPred after c else st

/-- The start of `build_for_statement` and `build_while_statement` (cfg/builder.rs:460-483,
508-531): header, body and after blocks (numbered from the current length), and the loop context. -/
def CfgSt.loopOpen (st : CfgSt) (c : Nat) : CfgSt :=
  let n := st.blocks.length
  let st := ((st.newBlock.newBlock.newBlock).setTerm c .goto).addEdge c n
  let st := ((st.setTerm n .loop).addEdge n (n + 1)).addEdge n (n + 2)
  { st with loops := ⟨n, n + 2⟩ :: st.loops }

/-- The start of `build_repeat_statement` (cfg/builder.rs:556-575): body and after blocks. -/
def CfgSt.repeatOpen (st : CfgSt) (c : Nat) : CfgSt :=
  let n := st.blocks.length
  let st := ((st.newBlock.newBlock).setTerm c .goto).addEdge c n
  let st := { st with loops := ⟨n, n + 1⟩ :: st.loops }
  st.addEdge n (n + 1)

/-- The end of the three loop builders (cfg/builder.rs:488-503, 536-551, 580-595): the edge back to
`target` and the loop stack popped. -/
def CfgSt.loopClose (st : CfgSt) (last target : Nat) : CfgSt :=
  let st := if (st.blk last).term.ends = false then (st.setTerm last .goto).addEdge last target else st
  { st with loops := st.loops.tail }

/-- The unreachable block created after a terminator (cfg/builder.rs:207-222). -/
def CfgSt.deadBlock (st : CfgSt) (c : Nat) (rest : List Range) : CfgSt :=
  let u := st.blocks.length
  rest.foldl (fun st r => st.addStatement u r) (st.newBlock.addPred u c)

mutual
/-- `build_statement` (`body = false`, cfg/builder.rs:227-313) and `build_expression` (`body = true`,
cfg/builder.rs:166-175), which differs only by descending into braces.  Returns the block where
control continues.  `build_if_statement` is cfg/builder.rs:315-450, the loops are
cfg/builder.rs:452-595. -/
def buildStmt (stop : List Str) : Stmt → Bool → Nat → CfgSt → CfgSt × Nat
  | .braced r ss, body, c, st =>
    if body then buildStmts stop ss c st else (st.addStatement c r, c)
  | .brk r, _, c, st =>
    if st.hasIncoming c = false then (st.addStatement c r, c) else (st.buildBreak c, c)
  | .nxt r, _, c, st =>
    if st.hasIncoming c = false then (st.addStatement c r, c) else (st.buildNext c, c)
  | .ret r, _, c, st =>
    if st.hasIncoming c = false then (st.addStatement c r, c) else (st.buildReturn c, c)
  | .call r f, _, c, st =>
    if st.hasIncoming c = false then (st.addStatement c r, c) else (st.buildCall stop c r f, c)
  | .other r, _, c, st => (st.addStatement c r, c)
  | .ifThen r k t, _, c, st =>
    if st.hasIncoming c = false then (st.addStatement c r, c) else
    let n := st.blocks.length
    let st1 := st.ifOpen c k
    let st2 := if evalConst k = some false then st1.pushStatement n t.range
      else (buildStmt stop t true n st1).1.closeBranch (buildStmt stop t true n st1).2 (n + 2)
    let st3 := (st2.setTerm (n + 1) .goto).addEdge (n + 1) (n + 2)
    (st3.ifEnd c (n + 2), n + 2)
  | .ifElse r k t e, _, c, st =>
    if st.hasIncoming c = false then (st.addStatement c r, c) else
    let n := st.blocks.length
    let st1 := st.ifOpen c k
    let st2 := if evalConst k = some false then st1.pushStatement n t.range
      else (buildStmt stop t true n st1).1.closeBranch (buildStmt stop t true n st1).2 (n + 2)
    let st3 := if evalConst k = some true then st2.pushStatement (n + 1) e.range
      else (buildStmt stop e true (n + 1) st2).1.closeBranch (buildStmt stop e true (n + 1) st2).2 (n + 2)
    (st3.ifEnd c (n + 2), n + 2)
  | .fors r b, _, c, st =>
    if st.hasIncoming c = false then (st.addStatement c r, c) else
    let n := st.blocks.length
    let p := buildStmt stop b true (n + 1) (st.loopOpen c)
    (p.1.loopClose p.2 n, n + 2)
  | .whiles r _ b, _, c, st =>
    if st.hasIncoming c = false then (st.addStatement c r, c) else
    let n := st.blocks.length
    let p := buildStmt stop b true (n + 1) (st.loopOpen c)
    (p.1.loopClose p.2 n, n + 2)
  | .repeats r b, _, c, st =>
    if st.hasIncoming c = false then (st.addStatement c r, c) else
    let n := st.blocks.length
    let p := buildStmt stop b true n (st.repeatOpen c)
    (p.1.loopClose p.2 n, n + 1)

/-- `build_statements` (cfg/builder.rs:191-225). -/
def buildStmts (stop : List Str) : List Stmt → Nat → CfgSt → CfgSt × Nat
  | [], c, st => (st, c)
  | s :: ss, c, st =>
    let p := buildStmt stop s false c st
    if (p.1.blk p.2).term.ends = true ∧ ss ≠ [] then
      (p.1.deadBlock p.2 (ss.map Stmt.range), p.1.blocks.length)
    else buildStmts stop ss p.2 p.1
end

/-- `build_cfg` (cfg/builder.rs:152-162, 658-665): the graph of a function with the given body. -/
def buildCfg (stop : List Str) (body : Stmt) : List Block := (buildStmt stop body true 0 .init).1.blocks

/-- `build_cfg_top_level` (cfg/builder.rs:667-680). -/
def buildCfgTopLevel (stop : List Str) (ss : List Stmt) : List Block := (buildStmts stop ss 0 .init).1.blocks

/-! ## Reachability (cfg/reachability.rs) -/

/-- Look up a block of a finished graph. -/
def blockAt (g : List Block) (i : Nat) : Block := g.getD i {}

/-- The loop of `find_reachable_blocks` (cfg/reachability.rs:302-325).  `queue` has the next block to
visit first.  Rust's loop has no bound: `fuel` is shown to be enough in `Verif.Lemmas.Cfg`. -/
def reachLoop (g : List Block) : Nat → List Nat → List Nat → List Nat
  | 0, visited, _ => visited
  | _ + 1, visited, [] => visited
  | n + 1, visited, b :: queue =>
    if visited.contains b then reachLoop g n visited queue
    else
      let visited := b :: visited
      reachLoop g n visited
        (((blockAt g b).succs.filter (fun s => !visited.contains s)).reverse ++ queue)

/-- Total number of edges. -/
def edgeCount (g : List Block) : Nat := (g.map (fun b => b.succs.length)).sum

/-- `find_reachable_blocks` (cfg/reachability.rs:302-325). -/
def reachable (g : List Block) : List Nat := reachLoop g (edgeCount g + 1) [] [0]

/-- `enum UnreachableReason` (cfg/reachability.rs:14-31). -/
inductive Reason
  | afterReturn | afterBreak | afterStop | afterNext | afterBranchTerminating | deadBranch
  | noPathFromEntry
deriving Repr, DecidableEq

/-- `UnreachableReason::message` (cfg/reachability.rs:33-57). -/
def Reason.message : Reason → Str
  | .afterReturn => cs! "This code is unreachable because it appears after a return statement."
  | .afterStop =>
    cs! "This code is unreachable because it appears after a `stop()` statement (or equivalent)."
  | .afterBreak => cs! "This code is unreachable because it appears after a break statement."
  | .afterNext => cs! "This code is unreachable because it appears after a next statement."
  | .afterBranchTerminating =>
    cs! "This code is unreachable because the preceding if/else terminates in all branches."
  | .deadBranch => cs! "This code is in a branch that can never be executed."
  | .noPathFromEntry => cs! "This code has no execution path from the function entry."

/-- The cache of `find_terminator_in_path`: latest entry first. -/
abbrev TermCache := List (Nat × Option Reason)

mutual
/-- `find_terminator_in_path` (cfg/reachability.rs:237-291).  The recursion visits every block at most
once thanks to the cache, so `fuel` (the number of blocks) is enough. -/
def termInPath (g : List Block) : Nat → Nat → TermCache → Option Reason × TermCache
  | 0, _, cache => (none, cache)
  | fuel + 1, b, cache =>
    match cache.lookup b with
    | some r => (r, cache)
    | none =>
      let cache := (b, none) :: cache
      match (blockAt g b).term with
      | .ret => (some .afterReturn, (b, some .afterReturn) :: cache)
      | .stop => (some .afterStop, (b, some .afterStop) :: cache)
      | .brk | .nxt | .loop | .none => (none, (b, none) :: cache)
      | .goto =>
        match (blockAt g b).succs with
        | next :: _ =>
          let p := termInPath g fuel next cache
          (p.1, (b, p.1) :: p.2)
        | [] => (none, (b, none) :: cache)
      | .branch =>
        let p := termInPaths g fuel (blockAt g b).succs none cache
        (p.1, (b, p.1) :: p.2)
/-- The loop over the successors of a nested branch (cfg/reachability.rs:270-283). -/
def termInPaths (g : List Block) : Nat → List Nat → Option Reason → TermCache → Option Reason × TermCache
  | _, [], acc, cache => (acc, cache)
  | 0, _ :: _, _, cache => (none, cache)
  | fuel + 1, s :: ss, _, cache =>
    let p := termInPath g fuel s cache
    match p.1 with
    | some r => termInPaths g fuel ss (some r) p.2
    | none => (none, p.2)
end

/-- The loop of `find_branch_terminator_reason` (cfg/reachability.rs:208-223): whether all branches
terminate, and whether one of them with a return or a stop. -/
def branchLoop (g : List Block) (fuel : Nat) : List Nat → Bool → Bool → TermCache → Bool × Bool
  | [], all, found, _ => (all, found)
  | s :: ss, all, found, cache =>
    let p := termInPath g fuel s cache
    match p.1 with
    | some .afterReturn => branchLoop g fuel ss all true p.2
    | some .afterStop => branchLoop g fuel ss all true p.2
    | some _ => branchLoop g fuel ss all found p.2
    | none => branchLoop g fuel ss false found p.2

/-- `find_branch_terminator_reason` (cfg/reachability.rs:190-231). -/
def branchTerminates (g : List Block) (b : Nat) : Bool :=
  let succs := (blockAt g b).succs
  if succs.isEmpty then false
  else
    let p := branchLoop g (2 * (g.length + edgeCount g) + 2) succs true false []
    p.1 && p.2

/-- Priority 1 of `determine_unreachable_reason` (cfg/reachability.rs:146-158): the first predecessor
that ends with return, break, next or stop. -/
def predReason (g : List Block) : List Nat → Option Reason
  | [] => none
  | p :: ps =>
    match (blockAt g p).term with
    | .ret => some .afterReturn
    | .brk => some .afterBreak
    | .nxt => some .afterNext
    | .stop => some .afterStop
    | _ => predReason g ps

/-- `determine_unreachable_reason` (cfg/reachability.rs:141-184). -/
def reasonOf (g : List Block) (b : Nat) : Reason :=
  let preds := (blockAt g b).preds
  match predReason g preds with
  | some r => r
  | none =>
    if preds.any (fun p => (blockAt g p).term == .branch && branchTerminates g p) then
      .afterBranchTerminating
    else if !preds.isEmpty && !(preds.any (fun p => (blockAt g p).succs.contains b)) then .deadBranch
    else .noPathFromEntry

/-- The range reported for an unreachable block, if any (cfg/reachability.rs:85-98). -/
def blockRange (k : Block) : Option Range :=
  match k.stmts with
  | s :: ss => some (s.cover ((s :: ss).getLast?.getD s))
  | [] => k.range

/-- Step 2 of `find_unreachable_code` (cfg/reachability.rs:74-100): blocks other than entry (0) and
exit (1) that were not visited, in order. -/
def unreachableBlocks (g : List Block) : List (Range × Reason) :=
  let seen := reachable g
  (List.range g.length).filterMap (fun b =>
    if b == 0 || b == 1 || seen.contains b then none
    else (blockRange (blockAt g b)).map (fun r => (r, reasonOf g b)))

/-- Insertion into a list sorted by start, before the elements with the same start. -/
def insertByStart (x : Range × Reason) : List (Range × Reason) → List (Range × Reason)
  | [] => [x]
  | y :: ys => if x.1.start ≤ y.1.start then x :: y :: ys else y :: insertByStart x ys

/-- `sort_by_key(|(range, _)| range.start())` (cfg/reachability.rs:103): Rust's sort is stable, so its
result is the one of this insertion sort. -/
def sortByStart (l : List (Range × Reason)) : List (Range × Reason) := l.foldr insertByStart []

/-- Step 4 of `find_unreachable_code` (cfg/reachability.rs:105-135): merge neighbours that touch and
have the same reason. -/
def groupLoop : Option (Range × Reason) → List (Range × Reason) → List (Range × Reason)
  | none, [] => []
  | some cur, [] => [cur]
  | none, x :: xs => groupLoop (some x) xs
  | some cur, x :: xs =>
    if cur.2 = x.2 ∧ x.1.start = cur.1.stop then groupLoop (some (cur.1.cover x.1, cur.2)) xs
    else cur :: groupLoop (some x) xs

/-- `find_unreachable_code` (cfg/reachability.rs:65-136). -/
def findUnreachable (g : List Block) : List (Range × Reason) := groupLoop none (sortByStart (unreachableBlocks g))

/-- The diagnostic for one piece of unreachable code (unreachable_code.rs:57-68, 97-108). -/
def unreachableDiag (x : Range × Reason) : Diagnostic :=
  Diagnostic.new (cs! "unreachable_code") x.2.message none x.1 Fix.empty

/-- `unreachable_code` (unreachable_code.rs:46-71): the check of a function definition with body
`body`. -/
def unreachableCode (stop : List Str) (body : Stmt) : List Diagnostic :=
  (findUnreachable (buildCfg stop body)).map unreachableDiag

/-- `unreachable_code_top_level` (unreachable_code.rs:79-113): the check of the top-level statements
of a file; two reasons are dropped. -/
def unreachableTopLevel (stop : List Str) (ss : List Stmt) : List Diagnostic :=
  ((findUnreachable (buildCfgTopLevel stop ss)).filter
    (fun x => x.2 ≠ .afterReturn ∧ x.2 ≠ .noPathFromEntry)).map unreachableDiag

/-- `resolve_with_extend` (rule_options/mod.rs:32-57): the option value, `none` = the error "Cannot
specify both".  Sets are lists here. -/
def resolveWithExtend (base extend : Option (List Str)) (defaults : List Str) : Option (List Str) :=
  match base, extend with
  | some _, some _ => none
  | some v, none => some v
  | none, some v => some (defaults ++ v)
  | none, none => some defaults

/-- `DEFAULT_STOPPING_FUNCTIONS` (rule_options/unreachable_code.rs:6-7). -/
def defaultStopping : List Str :=
  [cs! "stop", cs! ".Defunct", cs! "abort", cs! "cli_abort", cs! "q", cs! "quit"]

end Jarl

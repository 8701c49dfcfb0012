import Verif.Lsp
import Verif.LspActions
/-!
# LspServer: the main loop and the worker threads of the language server
(crates/jarl-lsp/src/server.rs:57-410, session.rs)

One thread reads the client's messages and keeps the documents; up to four workers take tasks from a
bounded first-in-first-out channel and write to the client. The machine below interleaves them in every possible way.
`show_message` notices and logging are not modelled.
-/
namespace Jarl

/-- session.rs:50-60 `DocumentSnapshot`: a clone of the document at the time of the request. -/
structure Snap where
  uri : Str
  content : Str
  version : Int
deriving DecidableEq, Repr

/-- server.rs:40-52 `Task`. The requested range of a code action is part of the parameter `actions` below. -/
inductive Task
  | lint (s : Snap)
  | action (s : Snap) (id : Nat)
deriving DecidableEq, Repr

/-- The messages a client sends: the notifications and requests of server.rs:211-345. `badRequest` is a code action request
whose parameters cannot be read, `otherRequest` any other method, `ignored` any other notification or a
response. -/
inductive ClientMsg
  | didOpen (uri text : Str) (version : Int)
  | didChange (uri : Str) (changes : List LChange) (version : Int)
  | didClose (uri : Str)
  | didSave (uri : Str)
  | codeAction (id : Nat) (uri : Str)
  | shutdown (id : Nat)
  | otherRequest (id : Nat)
  | badRequest (id : Nat)
  | ignored

/-- The messages the server sends: `publishDiagnostics`, the answer to a code action request, to `shutdown`, an error
response. -/
inductive ServerMsg
  | publish (uri : Str) (ds : List LspDiag) (version : Option Int)
  | actions (id : Nat) (as : List LspAction)
  | ack (id : Nat)
  | error (id : Nat)
deriving DecidableEq

/-- The server: documents (session.rs:35), task channel, tasks being run, idle workers, messages sent so far, and whether the
main loop has ended. -/
structure ServerState where
  docs : Str → Option TextDoc
  queue : List Task
  running : List Task
  idle : Nat
  out : List ServerMsg
  stopped : Bool

/-- server.rs:108-127: `n` workers, nothing open. -/
def ServerState.init (n : Nat) : ServerState := ⟨fun _ => none, [], [], n, [], false⟩

/-- `FxHashMap` `insert` and `remove`. -/
def setDoc (docs : Str → Option TextDoc) (u : Str) (d : Option TextDoc) : Str → Option TextDoc :=
  fun x => if x = u then d else docs x

/-- session.rs:196-206 `take_snapshot`. -/
def ServerState.snapshot (s : ServerState) (u : Str) : Option Snap :=
  (s.docs u).map (fun d => ⟨u, d.content, d.version⟩)

/-- `task_sender.send`. It blocks when 100 tasks are waiting, see `ServerRun.recv`. -/
def ServerState.push (s : ServerState) (t : Task) : ServerState := { s with queue := s.queue ++ [t] }

/-- `client.send_…`. -/
def ServerState.send (s : ServerState) (m : ServerMsg) : ServerState := { s with out := s.out ++ [m] }

/-- server.rs:190-345 `handle_message`, `handle_request`, `handle_notification`. Errors are logged and ignored by the
main loop (145-148). `none`: the main thread panics. -/
def handleMsg (enc : Enc) (s : ServerState) : ClientMsg → Option ServerState
  | .didOpen u t v => some { s with docs := setDoc s.docs u (some (TextDoc.new t v)) }
  | .didChange u cs v =>
    match s.docs u with
    | none => some s
    | some d =>
      match d.applyChanges cs v enc with
      | (_, .panic) => none
      | (d', _) => some { s with docs := setDoc s.docs u (some d') }
  | .didClose u =>
    match s.docs u with
    | none => some s
    | some _ => some (({ s with docs := setDoc s.docs u none } : ServerState).send (.publish u [] none))
  | .didSave u =>
    match s.snapshot u with
    | some sn => some (s.push (.lint sn))
    | none => some s
  | .codeAction id u =>
    match s.snapshot u with
    | some sn => some (s.push (.action sn id))
    | none => some (s.send (.error id))
  | .shutdown id => some (({ s with stopped := true } : ServerState).send (.ack id))
  | .otherRequest id => some (s.send (.error id))
  | .badRequest _ => some s
  | .ignored => some s

/-- What the workers compute. The results depend on files on disk (configuration, other files of the package) at the
moment they run, hence relations: every outcome allowed by the relation is possible. -/
structure ServerEnv where
  enc : Enc
  lint : Str → Str → LspRes (List LspDiag) → Prop
  actions : Str → Str → Nat → LspRes (List LspAction) → Prop

/-- server.rs:347-410: one step of a worker: it takes a task, or it finishes one. A panic ends the thread
(nothing catches it): it does not become idle again. -/
inductive WorkStep (env : ServerEnv) : ServerState → ServerState → Prop
  | take {s t q} : s.queue = t :: q → 0 < s.idle →
      WorkStep env s { s with queue := q, running := s.running ++ [t], idle := s.idle - 1 }
  | lintOk {s a sn b ds} : s.running = a ++ Task.lint sn :: b → env.lint sn.uri sn.content (.ok ds) →
      WorkStep env s { s with running := a ++ b, idle := s.idle + 1, out := s.out ++ [.publish sn.uri ds (some sn.version)] }
  | lintErr {s a sn b} : s.running = a ++ Task.lint sn :: b → env.lint sn.uri sn.content .err →
      WorkStep env s { s with running := a ++ b, idle := s.idle + 1 }
  | lintPanic {s a sn b} : s.running = a ++ Task.lint sn :: b → env.lint sn.uri sn.content .panic →
      WorkStep env s { s with running := a ++ b }
  | actionOk {s a sn id b as} : s.running = a ++ Task.action sn id :: b → env.actions sn.uri sn.content id (.ok as) →
      WorkStep env s { s with running := a ++ b, idle := s.idle + 1, out := s.out ++ [.actions id as] }
  | actionErr {s a sn id b} : s.running = a ++ Task.action sn id :: b → env.actions sn.uri sn.content id .err →
      WorkStep env s { s with running := a ++ b, idle := s.idle + 1, out := s.out ++ [.actions id []] }
  | actionPanic {s a sn id b} : s.running = a ++ Task.action sn id :: b → env.actions sn.uri sn.content id .panic →
      WorkStep env s { s with running := a ++ b }

/-- Everything that can happen: `ServerRun env n h s` if, with `n` workers, `s` is a possible state after the main loop has
handled the messages `h`. The channel holds at most 100 tasks: the main loop waits when it is full. -/
inductive ServerRun (env : ServerEnv) (n : Nat) : List ClientMsg → ServerState → Prop
  | init : ServerRun env n [] (ServerState.init n)
  | recv {h s m s'} : ServerRun env n h s → s.stopped = false → handleMsg env.enc s m = some s' →
      s'.queue.length ≤ 100 → ServerRun env n (h ++ [m]) s'
  | work {h s s'} : ServerRun env n h s → WorkStep env s s' → ServerRun env n h s'

end Jarl

import Verif.LspServer
import Verif.Discovery
/-!
# LspNotice: the handshake and the notices of the language server
(crates/jarl-lsp/src/session.rs:245-305 and 380-412, client.rs:140-163, server.rs:60-130, 265-295, 367-395)

The machine of `LspServer` in finer steps: a worker that lints a document asks and sets the shared flag (one atomic step), shows the notice, and publishes, and between
these steps the other threads may run.
-/
namespace Jarl

/-! ## The handshake -/

/-- document.rs:31-45 `PositionEncoding::try_from`: the names of the protocol. -/
def encOfName (k : Str) : Option Enc :=
  if k = cs! "utf-8" then some .utf8
  else if k = cs! "utf-16" then some .utf16
  else if k = cs! "utf-32" then some .utf32
  else none

/-- document.rs:20-29 `From<PositionEncoding>`. -/
def encName : Enc → Str
  | .utf8 => cs! "utf-8"
  | .utf16 => cs! "utf-16"
  | .utf32 => cs! "utf-32"

/-- session.rs:380-412 `negotiate_position_encoding`; `none`: the client has not sent a list. -/
def negotiate (offered : Option (List Str)) : Enc :=
  match offered with
  | none => .utf16
  | some l =>
    if l.any (fun k => encOfName k = some .utf8) then .utf8
    else if l.any (fun k => encOfName k = some .utf16) then .utf16
    else .utf16

/-! ## Where the configuration comes from -/

/-- session.rs:270-284: one of the paths of `discover_settings`, if its directory is not `cwd`. -/
def configElsewhere (canonical : DPath → Option DPath) (cwd : DPath) : Option DPath → Option DPath
  | none => none
  | some p =>
    if p = [] then none else
    match canonical p.dropLast with
    | none => none
    | some d => if d ≠ cwd then some p else none

/-- session.rs:249-300 `check_and_notify_config`, without the flag: the configuration file that is named in the notice. `found` are the paths of
`discover_settings` for the opened file (`none`: an error; an element is `none` without configuration file), `cwd` the working directory (`none`: an error) and
`canonical` is `Path::canonicalize`. -/
def noticedConfig (canonical : DPath → Option DPath) (cwd : Option DPath) (found : Option (List (Option DPath))) : Option DPath :=
  match cwd, found with
  | some cwd, some l => l.findSome? (configElsewhere canonical cwd)
  | _, _ => none

/-! ## The number of hidden reports -/

/-- lint.rs:152-186: the number next to `hideUnusedLsp`. -/
def hiddenCount (named : Bool) (total threshold : Nat) : Nat :=
  if named then 0 else if total > threshold then total else 0

/-! ## The machine -/

/-- What a worker is doing with its task: at the beginning, after `lint_document`, after the flag was found unset, and before publishing
(server.rs:367-395, client.rs:146-163). -/
inductive Phase
  | start
  | linted (ds : List LspDiag) (hidden : Nat)
  | toNotify (ds : List LspDiag) (hidden : Nat)
  | toPublish (ds : List LspDiag)
deriving DecidableEq

/-- What the server sends, with the notices. -/
inductive NoticeMsg
  | msg (m : ServerMsg)
  | hiddenNotice (count : Nat)
  | configNotice (path : DPath)
deriving DecidableEq

/-- The server with the shared flag of the client and that of the session (session.rs:47). -/
structure NoticeState where
  docs : Str → Option TextDoc
  queue : List Task
  running : List (Task × Phase)
  idle : Nat
  out : List NoticeMsg
  stopped : Bool
  notified : Bool
  configShown : Bool

/-- server.rs:57-130: `n` workers; client.rs:42 and session.rs:77: no notice shown yet. -/
def NoticeState.init (n : Nat) : NoticeState := ⟨fun _ => none, [], [], n, [], false, false, false⟩

/-- The messages without the notices. -/
def plainMsgs (l : List NoticeMsg) : List ServerMsg := l.filterMap (fun m => match m with | .msg m => some m | _ => none)

/-- The state as in `LspServer`. -/
def NoticeState.plain (s : NoticeState) : ServerState :=
  ⟨s.docs, s.queue, s.running.map Prod.fst, s.idle, plainMsgs s.out, s.stopped⟩

/-- What the workers compute: as `ServerEnv`, with the number of hidden reports (lint.rs:152-186), and which configuration file would be named for an opened
document (it depends on the disk). -/
structure NoticeEnv where
  enc : Enc
  lint : Str → Str → LspRes (List LspDiag × Nat) → Prop
  actions : Str → Str → Nat → LspRes (List LspAction) → Prop
  config : Str → Option DPath → Prop

/-- Without the number. -/
def LspRes.dropCount : LspRes (List LspDiag × Nat) → LspRes (List LspDiag)
  | .ok x => .ok x.1
  | .err => .err
  | .panic => .panic

def NoticeEnv.plain (env : NoticeEnv) : ServerEnv :=
  ⟨env.enc, fun u t r => ∃ x, env.lint u t x ∧ x.dropCount = r, env.actions⟩

/-- session.rs:249-300 with the flag; `c` is what `noticedConfig` gives. Only a client message `didOpen` leads here (server.rs:290-293). -/
def NoticeState.openNotice (s : NoticeState) (c : Option DPath) : NoticeState :=
  if s.configShown then s
  else match c with
    | none => s
    | some p => { s with out := s.out ++ [.configNotice p], configShown := true }

/-- server.rs:190-345 `handle_message`: the main thread does to documents, queue and messages what `handleMsg` says. -/
def handleNotice (enc : Enc) (s : NoticeState) (m : ClientMsg) (c : Option DPath) : Option NoticeState :=
  match handleMsg enc ⟨s.docs, s.queue, [], s.idle, [], s.stopped⟩ m with
  | none => none
  | some r =>
    let s' : NoticeState := { s with docs := r.docs, queue := r.queue, out := s.out ++ r.out.map NoticeMsg.msg, stopped := r.stopped }
    match m with
    | .didOpen .. => some (s'.openNotice c)
    | _ => some s'

/-- What happened, for the statements: a finished `lint_document`. -/
structure Linted where
  snap : Snap
  diags : List LspDiag
  hidden : Nat

/-- client.rs:146-163 and server.rs:367-395: one step of a worker. -/
inductive NoticeStep (env : NoticeEnv) : List Linted → NoticeState → List Linted → NoticeState → Prop
  | take {e s t q} : s.queue = t :: q → 0 < s.idle →
      NoticeStep env e s e { s with queue := q, running := s.running ++ [(t, .start)], idle := s.idle - 1 }
  | lintOk {e s a sn b ds n} : s.running = a ++ (Task.lint sn, Phase.start) :: b → env.lint sn.uri sn.content (.ok (ds, n)) →
      NoticeStep env e s (e ++ [⟨sn, ds, n⟩])
        { s with running := a ++ (Task.lint sn, if n > 0 then Phase.linted ds n else Phase.toPublish ds) :: b }
  | swap {e s a sn b ds n} : s.running = a ++ (Task.lint sn, Phase.linted ds n) :: b →
      NoticeStep env e s e
        { s with running := a ++ (Task.lint sn, if s.notified then Phase.toPublish ds else Phase.toNotify ds n) :: b, notified := true }
  | notify {e s a sn b ds n} : s.running = a ++ (Task.lint sn, Phase.toNotify ds n) :: b →
      NoticeStep env e s e { s with running := a ++ (Task.lint sn, Phase.toPublish ds) :: b, out := s.out ++ [.hiddenNotice n] }
  | publish {e s a sn b ds} : s.running = a ++ (Task.lint sn, Phase.toPublish ds) :: b →
      NoticeStep env e s e
        { s with running := a ++ b, idle := s.idle + 1, out := s.out ++ [.msg (.publish sn.uri ds (some sn.version))] }
  | lintErr {e s a sn b} : s.running = a ++ (Task.lint sn, Phase.start) :: b → env.lint sn.uri sn.content .err →
      NoticeStep env e s e { s with running := a ++ b, idle := s.idle + 1 }
  | lintPanic {e s a sn b} : s.running = a ++ (Task.lint sn, Phase.start) :: b → env.lint sn.uri sn.content .panic →
      NoticeStep env e s e { s with running := a ++ b }
  | actionOk {e s a sn id b as} : s.running = a ++ (Task.action sn id, Phase.start) :: b → env.actions sn.uri sn.content id (.ok as) →
      NoticeStep env e s e { s with running := a ++ b, idle := s.idle + 1, out := s.out ++ [.msg (.actions id as)] }
  | actionErr {e s a sn id b} : s.running = a ++ (Task.action sn id, Phase.start) :: b → env.actions sn.uri sn.content id .err →
      NoticeStep env e s e { s with running := a ++ b, idle := s.idle + 1, out := s.out ++ [.msg (.actions id [])] }
  | actionPanic {e s a sn id b} : s.running = a ++ (Task.action sn id, Phase.start) :: b → env.actions sn.uri sn.content id .panic →
      NoticeStep env e s e { s with running := a ++ b }

/-- Everything that can happen: `NoticeRun env n h e s` if, with `n` workers, `s` is a possible state after the main loop has handled the messages `h` and
the runs `e` of `lint_document` have succeeded. -/
inductive NoticeRun (env : NoticeEnv) (n : Nat) : List ClientMsg → List Linted → NoticeState → Prop
  | init : NoticeRun env n [] [] (NoticeState.init n)
  | recv {h e s m c s'} : NoticeRun env n h e s → s.stopped = false → (∀ u t v, m = .didOpen u t v → env.config u c) →
      handleNotice env.enc s m c = some s' → s'.queue.length ≤ 100 → NoticeRun env n (h ++ [m]) e s'
  | work {h e s e' s'} : NoticeRun env n h e s → NoticeStep env e s e' s' → NoticeRun env n h e' s'

end Jarl

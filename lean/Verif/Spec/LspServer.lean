import Verif.LspServer
import Verif.Spec.Lsp
/-!
# Specification of a session, from the client's side
-/
namespace Jarl.Spec
open Jarl

/-- `f` with the value at `u` replaced. -/
def upd {α} (f : Str → α) (u : Str) (a : α) : Str → α := fun x => if x = u then a else f x

/-- A session seen from the client, after the messages `h`: `V` are the texts and versions of the open documents, `S`
the log of saves (document, text and version at that moment), `R` the requests to be answered. Changes are
sent from the end of the document to its start (see C42 for other orders). -/
inductive Session (enc : Enc) : List ClientMsg → (Str → Option (Str × Int)) → List (Str × Str × Int) → List Nat → Prop
  | start : Session enc [] (fun _ => none) [] []
  | didOpen {h V S R} (u t v) : Session enc h V S R → Session enc (h ++ [.didOpen u t v]) (upd V u (some (t, v))) S R
  | edit {h V S R u t w es t'} (v) : Session enc h V S R → V u = some (t, w) → EditRun t es t' → EndToStart es →
      Session enc (h ++ [.didChange u (es.map (PlacedEdit.event enc)) v]) (upd V u (some (t', v))) S R
  | didClose {h V S R} (u) : Session enc h V S R → Session enc (h ++ [.didClose u]) (upd V u none) S R
  | save {h V S R u t v} : Session enc h V S R → V u = some (t, v) → Session enc (h ++ [.didSave u]) V (S ++ [(u, t, v)]) R
  | saveClosed {h V S R u} : Session enc h V S R → V u = none → Session enc (h ++ [.didSave u]) V S R
  | codeAction {h V S R} (id u) : Session enc h V S R → Session enc (h ++ [.codeAction id u]) V S (R ++ [id])
  | shutdown {h V S R} (id) : Session enc h V S R → Session enc (h ++ [.shutdown id]) V S (R ++ [id])
  | otherRequest {h V S R} (id) : Session enc h V S R → Session enc (h ++ [.otherRequest id]) V S (R ++ [id])
  | ignored {h V S R} : Session enc h V S R → Session enc (h ++ [.ignored]) V S R

/-- The diagnostics of saved documents among the messages sent: document and version, in order. -/
def published : List ServerMsg → List (Str × Int)
  | [] => []
  | .publish u _ (some v) :: ms => (u, v) :: published ms
  | _ :: ms => published ms

/-- The requests answered, in order. -/
def answered : List ServerMsg → List Nat
  | [] => []
  | .actions id _ :: ms => id :: answered ms
  | .ack id :: ms => id :: answered ms
  | .error id :: ms => id :: answered ms
  | .publish .. :: ms => answered ms

/-- No task is waiting or running. -/
def Quiet (s : ServerState) : Prop := s.queue = [] ∧ s.running = []

/-- What the editor displays for `u`: the diagnostics of the last message about it. -/
def shown (u : Str) : List ServerMsg → Option (List LspDiag)
  | [] => none
  | .publish w ds _ :: ms => match shown u ms with
    | some x => some x
    | none => if w = u then some ds else none
  | _ :: ms => shown u ms

end Jarl.Spec

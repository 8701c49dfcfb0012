import Verif.LspNotice
/-!
# Specification: the handshake and the notices of the language server
-/
namespace Jarl.Spec
open Jarl

/-- The encodings a client understands (LSP 3.17, `general.positionEncodings`): those it lists, and UTF-16, which every client must support. -/
def Understands (offered : Option (List Str)) (e : Enc) : Prop :=
  e = .utf16 ∨ ∃ l, offered = some l ∧ (match e with
    | .utf8 => cs! "utf-8" ∈ l
    | .utf16 => cs! "utf-16" ∈ l
    | .utf32 => cs! "utf-32" ∈ l)

/-- The notices about hidden reports that were shown: their numbers. -/
def hiddenNotices : List NoticeMsg → List Nat
  | [] => []
  | .hiddenNotice n :: l => n :: hiddenNotices l
  | _ :: l => hiddenNotices l

/-- The configuration files named in notices. -/
def configNotices : List NoticeMsg → List DPath
  | [] => []
  | .configNotice p :: l => p :: configNotices l
  | _ :: l => configNotices l

/-- A configuration file in another directory than the working directory. -/
def Elsewhere (canonical : DPath → Option DPath) (cwd : DPath) (p : DPath) : Prop :=
  p ≠ [] ∧ ∃ d, canonical p.dropLast = some d ∧ d ≠ cwd

end Jarl.Spec

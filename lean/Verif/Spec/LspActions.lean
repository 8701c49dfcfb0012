import Verif.LspActions
import Verif.Spec.Lsp
import Verif.Spec.Check
/-!
# Specification of what an editor shows and does
-/
namespace Jarl.Spec
open Jarl

/-- What a client makes of a `TextEdit`: the text between the two positions of the range is replaced. -/
def EditApplies (enc : Enc) (text : Str) (e : TextEdit) (out : Str) : Prop :=
  ∃ pre old post, text = pre ++ old ++ post ∧ e.range = ⟨posOf enc pre, posOf enc (pre ++ old)⟩ ∧
    out = pre ++ e.newText ++ post

/-- The byte range `[start, stop)` of the text lies between characters. -/
def CutsAt (text : Str) (start stop : Nat) : Prop :=
  ∃ pre mid post, text = pre ++ mid ++ post ∧ start = blen pre ∧ stop = blen (pre ++ mid)

/-- `x` is the editor's view of the report `d`: the text of `d`, at the LSP positions of the bytes of `d`, carrying the
fix of `d`. -/
structure Shows (enc : Enc) (text : Str) (d : Diagnostic) (x : LspDiag) : Prop where
  place : ∃ pre mid post, text = pre ++ mid ++ post ∧ d.range.start = blen pre ∧ d.range.stop = blen (pre ++ mid) ∧
    x.range = ⟨posOf enc pre, posOf enc (pre ++ mid)⟩
  message : x.message = d.body ++ (match d.suggestion with | some s => cs! " " ++ s | none => [])
  rule : x.data.ruleName = d.name
  bytes : x.data.diagStart = d.range.start ∧ x.data.diagEnd = d.range.stop
  fix : x.data.content = d.fix.content ∧ x.data.start = d.fix.start ∧ x.data.stop = d.fix.stop
  safe : x.data.isSafe = true ↔ d.fix.content ≠ [] ∧ d.fix.toSkip = false ∧
    ∃ r : Rule, r.name = d.name ∧ r.fixStatus = FixStatus.safe

/-- Two lists correspond element by element. -/
inductive Each {α β} (R : α → β → Prop) : List α → List β → Prop
  | nil : Each R [] []
  | cons {a b l m} : R a b → Each R l m → Each R (a :: l) (b :: m)

end Jarl.Spec

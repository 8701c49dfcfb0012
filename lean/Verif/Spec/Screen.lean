import Verif.Output
/-!
# Specification: what a terminal shows of a text (C81)

ECMA-48: `ESC [`, parameters, a letter (colours); `ESC ]`, any text, `ESC \` (links, OSC 8). Nothing of them is shown.
-/
namespace Jarl.Spec
open Jarl

/-- Where the terminal is: in text, behind ESC, in a control sequence, in an operating system command, behind ESC in one. -/
inductive Term | text | escape | control | command | commandEnd

/-- What is shown. -/
def onScreen : Term → Str → Str
  | _, [] => []
  | .text, c :: r => if c = Char.ofNat 27 then onScreen .escape r else c :: onScreen .text r
  | .escape, c :: r => if c = '[' then onScreen .control r else if c = ']' then onScreen .command r else onScreen .text r
  | .control, c :: r => if 64 ≤ c.toNat ∧ c.toNat ≤ 126 then onScreen .text r else onScreen .control r
  | .command, c :: r => if c = Char.ofNat 27 then onScreen .commandEnd r else if c = Char.ofNat 7 then onScreen .text r else onScreen .command r
  | .commandEnd, c :: r => if c = '\\' then onScreen .text r else onScreen .command r

/-- What a terminal shows of the text. -/
def visible (s : Str) : Str := onScreen .text s

/-- Without the escape character. -/
def NoEscape (s : Str) : Prop := Char.ofNat 27 ∉ s

/-- There is no escape character in what the run has found: names of files, messages of rules, of the system, of the configuration. -/
structure Unescaped (env : OutEnv) (args : OutArgs) (rs : FileResults) : Prop where
  files : ∀ r ∈ rs, NoEscape r.1 ∧ ∀ e, NoEscape (env.detail r.1 e)
  diags : ∀ r ∈ rs, ∀ ds, r.2 = .ok ds → ∀ d ∈ ds, NoEscape d.filename ∧ (∃ r : Rule, d.name = r.name) ∧ NoEscape d.body ∧ ∀ s, d.suggestion = some s → NoEscape s
  read : ∀ p m, env.read p = .error m → NoEscape m
  timing : ∀ t, args.timing = some t → NoEscape t
  config : ∀ p, args.parentConfig = some p → NoEscape p

/-- The renderer of code only adds escape sequences for colours and links. -/
def RendersPlain (env : OutEnv) (d : Diagnostic) : Prop :=
  ∀ source path, env.read d.filename = .ok source → ∀ rest,
    visible (env.render (!env.noColor) source path (ruleTitle env d.name) d ++ rest) = env.render false source path d.name d ++ visible rest

/-- The same surroundings, with `NO_COLOR` and no colours. -/
def withoutColor (env : OutEnv) : OutEnv := { env with noColor := true, colors := false }

end Jarl.Spec

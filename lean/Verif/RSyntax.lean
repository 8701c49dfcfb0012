import Verif.Text
/-!
# RSyntax: R code as jarl sees it

The lint rules work on the syntax tree of the parser (air_r_parser, not part of /repo; check.rs:118-131 calls it). Here a tree is a
`Node`; it keeps every token together with the gap in front of it, so the tokens of a node are determined by the node
(`toks`), as the text is in the real tree.

Simplifications: the help operator `?` and `:=` are left out, `pkg::name` counts as one token, and of white space only line breaks
and comments are kept. `f()` has the single argument `hole`.
-/
namespace Jarl

/-- What is between a token and the one before it: nothing (or blanks), or at least one line break; in the second case there may be
a comment behind the previous token (`trail`) and comments on lines of their own (`own`). -/
inductive Gap
  | none
  | line (trail own : Bool)
deriving DecidableEq, Repr

/-- There is a line break. -/
def Gap.nl : Gap → Bool
  | .none => false
  | .line .. => true

/-- There is a comment behind the previous token. -/
def Gap.trail : Gap → Bool
  | .line t _ => t
  | .none => false

/-- There is a comment on a line of its own. -/
def Gap.own : Gap → Bool
  | .line _ o => o
  | .none => false

/-- Atoms: identifiers, `pkg::name`, numbers, strings and constants. `RIdentifier`, `RNamespaceExpression`, `AnyRValue`,
`RTrueExpression`, … of air_r_syntax. -/
inductive AKind
  | id
  | ns (pkg : Str) (internal : Bool)
  | int | double | complex | str
  | true | false | null | na | nan | inf | dots | break | next | return
deriving DecidableEq, Repr

/-- Operators. `special s` is `%s%`. -/
inductive Op
  | eq | assign | superAssign | rassign | superRassign | tilde | or | or2 | and | and2 | bang
  | lt | gt | le | ge | eq2 | ne | plus | minus | mul | div | special (s : Str) | pipe | colon | pow
deriving DecidableEq, Repr

/-- Brackets: `f(…)`, `x[…]`, `x[[…]]`. -/
inductive Br
  | par | brk | brk2
deriving DecidableEq, Repr

/-- Kinds of tokens. -/
inductive TK
  | atom (k : AKind) (s : Str)
  | op (o : Op)
  | open (b : Br) | close (b : Br) | lbrace | rbrace | comma | semi
  | fn (lambda : Bool) | if | else | while | for | in | repeat
  | ext (slot : Bool)
deriving DecidableEq, Repr

/-- A token with the gap in front of it. -/
structure Tok where
  gap : Gap
  k : TK
deriving DecidableEq, Repr

/-- Trees. Expressions: `atom` … `repE`; arguments: `hole` (nothing), `named` (`name = value`), or an expression; argument lists: one
argument, or `comma`; statement lists: `snil`, `scons` (with the semicolons behind the statement). -/
inductive Node
  | atom (g : Gap) (k : AKind) (s : Str)
  | paren (g : Gap) (e : Node) (g2 : Gap)
  | braces (g : Gap) (ss : Node) (g2 : Gap)
  | un (g : Gap) (o : Op) (e : Node)
  | bin (l : Node) (g : Gap) (o : Op) (r : Node)
  | ext (l : Node) (g : Gap) (slot : Bool) (g2 : Gap) (k : AKind) (s : Str)
  | call (f : Node) (g : Gap) (b : Br) (args : Node) (g2 : Gap)
  | func (g : Gap) (lambda : Bool) (g2 : Gap) (params : Node) (g3 : Gap) (body : Node)
  | ifE (g g2 : Gap) (c : Node) (g3 : Gap) (t : Node)
  | ifElse (g g2 : Gap) (c : Node) (g3 : Gap) (t : Node) (g4 : Gap) (e : Node)
  | whileE (g g2 : Gap) (c : Node) (g3 : Gap) (b : Node)
  | forE (g g2 gv : Gap) (v : Str) (gi : Gap) (seq : Node) (g3 : Gap) (b : Node)
  | repE (g : Gap) (b : Node)
  | hole
  | named (g : Gap) (k : AKind) (s : Str) (g2 : Gap) (e : Node)
  | comma (a : Node) (g : Gap) (rest : Node)
  | snil
  | scons (e : Node) (semis : List Gap) (rest : Node)
deriving DecidableEq, Repr

/-- The tokens of a node, in order. -/
def toks : Node → List Tok
  | .atom g k s => [⟨g, .atom k s⟩]
  | .paren g e g2 => ⟨g, .open .par⟩ :: toks e ++ [⟨g2, .close .par⟩]
  | .braces g ss g2 => ⟨g, .lbrace⟩ :: toks ss ++ [⟨g2, .rbrace⟩]
  | .un g o e => ⟨g, .op o⟩ :: toks e
  | .bin l g o r => toks l ++ ⟨g, .op o⟩ :: toks r
  | .ext l g a g2 k s => toks l ++ [⟨g, .ext a⟩, ⟨g2, .atom k s⟩]
  | .call f g b args g2 => toks f ++ ⟨g, .open b⟩ :: toks args ++ [⟨g2, .close b⟩]
  | .func g la g2 params g3 body => ⟨g, .fn la⟩ :: ⟨g2, .open .par⟩ :: toks params ++ ⟨g3, .close .par⟩ :: toks body
  | .ifE g g2 c g3 t => ⟨g, .if⟩ :: ⟨g2, .open .par⟩ :: toks c ++ ⟨g3, .close .par⟩ :: toks t
  | .ifElse g g2 c g3 t g4 e => ⟨g, .if⟩ :: ⟨g2, .open .par⟩ :: toks c ++ ⟨g3, .close .par⟩ :: toks t ++ ⟨g4, .else⟩ :: toks e
  | .whileE g g2 c g3 b => ⟨g, .while⟩ :: ⟨g2, .open .par⟩ :: toks c ++ ⟨g3, .close .par⟩ :: toks b
  | .forE g g2 gv v gi seq g3 b =>
    ⟨g, .for⟩ :: ⟨g2, .open .par⟩ :: ⟨gv, .atom .id v⟩ :: ⟨gi, .in⟩ :: toks seq ++ ⟨g3, .close .par⟩ :: toks b
  | .repE g b => ⟨g, .repeat⟩ :: toks b
  | .hole => []
  | .named g k s g2 e => ⟨g, .atom k s⟩ :: ⟨g2, .op .eq⟩ :: toks e
  | .comma a g rest => toks a ++ ⟨g, .comma⟩ :: toks rest
  | .snil => []
  | .scons e semis rest => toks e ++ semis.map (fun g => ⟨g, .semi⟩) ++ toks rest

/-- A node with a place in it: where a child of the node is missing. -/
inductive Frame
  | paren (g g2 : Gap)
  | braces (g g2 : Gap)
  | un (g : Gap) (o : Op)
  | binL (g : Gap) (o : Op) (r : Node)
  | binR (l : Node) (g : Gap) (o : Op)
  | ext (g : Gap) (slot : Bool) (g2 : Gap) (k : AKind) (s : Str)
  | callF (g : Gap) (b : Br) (args : Node) (g2 : Gap)
  | callA (f : Node) (g : Gap) (b : Br) (g2 : Gap)
  | funcP (g : Gap) (lambda : Bool) (g2 g3 : Gap) (body : Node)
  | funcB (g : Gap) (lambda : Bool) (g2 : Gap) (params : Node) (g3 : Gap)
  | ifC (g g2 g3 : Gap) (t : Node)
  | ifT (g g2 : Gap) (c : Node) (g3 : Gap)
  | ieC (g g2 g3 : Gap) (t : Node) (g4 : Gap) (e : Node)
  | ieT (g g2 : Gap) (c : Node) (g3 g4 : Gap) (e : Node)
  | ieE (g g2 : Gap) (c : Node) (g3 : Gap) (t : Node) (g4 : Gap)
  | whileC (g g2 g3 : Gap) (b : Node)
  | whileB (g g2 : Gap) (c : Node) (g3 : Gap)
  | forS (g g2 gv : Gap) (v : Str) (gi g3 : Gap) (b : Node)
  | forB (g g2 gv : Gap) (v : Str) (gi : Gap) (seq : Node) (g3 : Gap)
  | repE (g : Gap)
  | named (g : Gap) (k : AKind) (s : Str) (g2 : Gap)
  | commaA (g : Gap) (rest : Node)
  | commaR (a : Node) (g : Gap)
  | sconsE (semis : List Gap) (rest : Node)
  | sconsR (e : Node) (semis : List Gap)
deriving DecidableEq, Repr

/-- Put the child back. -/
def Frame.fill : Frame → Node → Node
  | .paren g g2, x => .paren g x g2
  | .braces g g2, x => .braces g x g2
  | .un g o, x => .un g o x
  | .binL g o r, x => .bin x g o r
  | .binR l g o, x => .bin l g o x
  | .ext g b g2 k s, x => .ext x g b g2 k s
  | .callF g b args g2, x => .call x g b args g2
  | .callA f g b g2, x => .call f g b x g2
  | .funcP g la g2 g3 b, x => .func g la g2 x g3 b
  | .funcB g la g2 p g3, x => .func g la g2 p g3 x
  | .ifC g g2 g3 t, x => .ifE g g2 x g3 t
  | .ifT g g2 c g3, x => .ifE g g2 c g3 x
  | .ieC g g2 g3 t g4 e, x => .ifElse g g2 x g3 t g4 e
  | .ieT g g2 c g3 g4 e, x => .ifElse g g2 c g3 x g4 e
  | .ieE g g2 c g3 t g4, x => .ifElse g g2 c g3 t g4 x
  | .whileC g g2 g3 b, x => .whileE g g2 x g3 b
  | .whileB g g2 c g3, x => .whileE g g2 c g3 x
  | .forS g g2 gv v gi g3 b, x => .forE g g2 gv v gi x g3 b
  | .forB g g2 gv v gi s g3, x => .forE g g2 gv v gi s g3 x
  | .repE g, x => .repE g x
  | .named g k s g2, x => .named g k s g2 x
  | .commaA g rest, x => .comma x g rest
  | .commaR a g, x => .comma a g x
  | .sconsE semis rest, x => .scons x semis rest
  | .sconsR e semis, x => .scons e semis x

/-- The tokens of the frame in front of the place. -/
def Frame.before : Frame → List Tok
  | .paren g _ => [⟨g, .open .par⟩]
  | .braces g _ => [⟨g, .lbrace⟩]
  | .un g o => [⟨g, .op o⟩]
  | .binL .. => []
  | .binR l g o => toks l ++ [⟨g, .op o⟩]
  | .ext .. => []
  | .callF .. => []
  | .callA f g b _ => toks f ++ [⟨g, .open b⟩]
  | .funcP g la g2 _ _ => [⟨g, .fn la⟩, ⟨g2, .open .par⟩]
  | .funcB g la g2 p g3 => ⟨g, .fn la⟩ :: ⟨g2, .open .par⟩ :: toks p ++ [⟨g3, .close .par⟩]
  | .ifC g g2 _ _ => [⟨g, .if⟩, ⟨g2, .open .par⟩]
  | .ifT g g2 c g3 => ⟨g, .if⟩ :: ⟨g2, .open .par⟩ :: toks c ++ [⟨g3, .close .par⟩]
  | .ieC g g2 _ _ _ _ => [⟨g, .if⟩, ⟨g2, .open .par⟩]
  | .ieT g g2 c g3 _ _ => ⟨g, .if⟩ :: ⟨g2, .open .par⟩ :: toks c ++ [⟨g3, .close .par⟩]
  | .ieE g g2 c g3 t g4 => ⟨g, .if⟩ :: ⟨g2, .open .par⟩ :: toks c ++ ⟨g3, .close .par⟩ :: toks t ++ [⟨g4, .else⟩]
  | .whileC g g2 _ _ => [⟨g, .while⟩, ⟨g2, .open .par⟩]
  | .whileB g g2 c g3 => ⟨g, .while⟩ :: ⟨g2, .open .par⟩ :: toks c ++ [⟨g3, .close .par⟩]
  | .forS g g2 gv v gi _ _ => [⟨g, .for⟩, ⟨g2, .open .par⟩, ⟨gv, .atom .id v⟩, ⟨gi, .in⟩]
  | .forB g g2 gv v gi s g3 => ⟨g, .for⟩ :: ⟨g2, .open .par⟩ :: ⟨gv, .atom .id v⟩ :: ⟨gi, .in⟩ :: toks s ++ [⟨g3, .close .par⟩]
  | .repE g => [⟨g, .repeat⟩]
  | .named g k s g2 => [⟨g, .atom k s⟩, ⟨g2, .op .eq⟩]
  | .commaA .. => []
  | .commaR a g => toks a ++ [⟨g, .comma⟩]
  | .sconsE .. => []
  | .sconsR e semis => toks e ++ semis.map (fun g => ⟨g, .semi⟩)

/-- The tokens of the frame behind the place. -/
def Frame.after : Frame → List Tok
  | .paren _ g2 => [⟨g2, .close .par⟩]
  | .braces _ g2 => [⟨g2, .rbrace⟩]
  | .un .. => []
  | .binL g o r => ⟨g, .op o⟩ :: toks r
  | .binR .. => []
  | .ext g b g2 k s => [⟨g, .ext b⟩, ⟨g2, .atom k s⟩]
  | .callF g b args g2 => ⟨g, .open b⟩ :: toks args ++ [⟨g2, .close b⟩]
  | .callA _ _ b g2 => [⟨g2, .close b⟩]
  | .funcP _ _ _ g3 b => ⟨g3, .close .par⟩ :: toks b
  | .funcB .. => []
  | .ifC _ _ g3 t => ⟨g3, .close .par⟩ :: toks t
  | .ifT .. => []
  | .ieC _ _ g3 t g4 e => ⟨g3, .close .par⟩ :: toks t ++ ⟨g4, .else⟩ :: toks e
  | .ieT _ _ _ _ g4 e => ⟨g4, .else⟩ :: toks e
  | .ieE .. => []
  | .whileC _ _ g3 b => ⟨g3, .close .par⟩ :: toks b
  | .whileB .. => []
  | .forS _ _ _ _ _ g3 b => ⟨g3, .close .par⟩ :: toks b
  | .forB .. => []
  | .repE _ => []
  | .named .. => []
  | .commaA g rest => ⟨g, .comma⟩ :: toks rest
  | .commaR .. => []
  | .sconsE semis rest => semis.map (fun g => ⟨g, .semi⟩) ++ toks rest
  | .sconsR .. => []

/-- A node in a program: the node and the frames around it, the innermost first. -/
structure Zip where
  fs : List Frame
  e : Node
deriving DecidableEq, Repr

/-- A program with a place, filled. -/
def plug : List Frame → Node → Node
  | [], e => e
  | f :: fs, e => plug fs (f.fill e)

/-- The tokens in front of the place. -/
def beforeToks : List Frame → List Tok
  | [] => []
  | f :: fs => beforeToks fs ++ f.before

/-- The tokens behind the place. -/
def afterToks : List Frame → List Tok
  | [] => []
  | f :: fs => f.after ++ afterToks fs

/-- The whole program. -/
def Zip.prog (z : Zip) : Node := plug z.fs z.e

/-- The parent. -/
def Zip.up (z : Zip) : Option Zip :=
  match z.fs with
  | [] => none
  | f :: fs => some ⟨fs, f.fill z.e⟩

end Jarl

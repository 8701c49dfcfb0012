import Verif.Spec.RGrammar
/-!
# The grammar of R is unambiguous

`Parses ts p` determines `p`. The proof goes through a parser (precedence climbing, with fuel) that finds every well-formed node.
-/
namespace Jarl
open Spec

namespace RParser

/-- What to parse. -/
inductive Job
  | prim (md : Mode)
  | expr (md : Mode) (m : Nat)
  | loop (md : Mode) (m : Nat) (lhs : Node)
  | arg
  | args
  | stmts (md : Mode)

instance (md g) : Decidable (joins md g) := inferInstanceAs (Decidable (_ ∨ _))
instance (md g) : Decidable (joinsElse md g) := inferInstanceAs (Decidable (_ ∨ _))

/-- The semicolons at the front. -/
def semis : List Tok → List Gap × List Tok
  | ⟨g, .semi⟩ :: ts => ((g :: (semis ts).1), (semis ts).2)
  | ts => ([], ts)

/-- Nothing here: the next token ends an argument. -/
def endArg : List Tok → Bool
  | [] => true
  | ⟨_, .comma⟩ :: _ => true
  | ⟨_, .close _⟩ :: _ => true
  | _ => false

/-- The next token ends a list of statements. -/
def endStmts : List Tok → Bool
  | [] => true
  | ⟨_, .rbrace⟩ :: _ => true
  | _ => false

/-- The tokens start like a named argument. -/
def namedStart : List Tok → Bool
  | ⟨_, .atom k _⟩ :: ⟨_, .op .eq⟩ :: _ => nameable k
  | _ => false

abbrev Res := Node × List Tok

/-- `( expr )` and go on. -/
def cond (self : Job → List Tok → Option Res) (m : Nat) (ts : List Tok) (k : Gap → Node → Gap → List Tok → Option Res) : Option Res :=
  match ts with
  | ⟨g, .open .par⟩ :: ts =>
    match self (.expr .free m) ts with
    | some (c, ⟨g2, .close .par⟩ :: ts) => k g c g2 ts
    | _ => none
  | _ => none

/-- Body of a loop. -/
def body (self : Job → List Tok → Option Res) (md : Mode) (ts : List Tok) (k : Node → List Tok → Option Res) : Option Res :=
  match self (.expr md bodyBp) ts with
  | some (b, ts) => k b ts
  | none => none

def primStep (self : Job → List Tok → Option Res) (md : Mode) : List Tok → Option Res
  | ⟨g, .atom k s⟩ :: ts => some (.atom g k s, ts)
  | ⟨g, .open .par⟩ :: ts => cond self 0 (⟨g, .open .par⟩ :: ts) fun g c g2 ts => some (.paren g c g2, ts)
  | ⟨g, .lbrace⟩ :: ts =>
    match self (.stmts .brace) ts with
    | some (ss, ⟨g2, .rbrace⟩ :: ts) => some (.braces g ss g2, ts)
    | _ => none
  | ⟨g, .op o⟩ :: ts =>
    match unLevel o with
    | some k =>
      match self (.expr md (2 * k)) ts with
      | some (e, ts) => some (.un g o e, ts)
      | none => none
    | none => none
  | ⟨g, .fn la⟩ :: ⟨g2, .open .par⟩ :: ts =>
    match self .args ts with
    | some (ps, ⟨g3, .close .par⟩ :: ts) => body self md ts fun b ts => some (.func g la g2 ps g3 b, ts)
    | _ => none
  | ⟨g, .if⟩ :: ts => cond self argBp ts fun g2 c g3 ts => body self md ts fun t ts =>
    match ts with
    | ⟨g4, .else⟩ :: ts' =>
      if joinsElse md g4 then body self md ts' fun e ts => some (.ifElse g g2 c g3 t g4 e, ts) else some (.ifE g g2 c g3 t, ts)
    | _ => some (.ifE g g2 c g3 t, ts)
  | ⟨g, .while⟩ :: ts => cond self argBp ts fun g2 c g3 ts => body self md ts fun b ts => some (.whileE g g2 c g3 b, ts)
  | ⟨g, .for⟩ :: ⟨g2, .open .par⟩ :: ⟨gv, .atom .id v⟩ :: ⟨gi, .in⟩ :: ts =>
    match self (.expr .free argBp) ts with
    | some (c, ⟨g3, .close .par⟩ :: ts) => body self md ts fun b ts => some (.forE g g2 gv v gi c g3 b, ts)
    | _ => none
  | ⟨g, .repeat⟩ :: ts => body self md ts fun b ts => some (.repE g b, ts)
  | _ => none

def loopStep (self : Job → List Tok → Option Res) (md : Mode) (m : Nat) (lhs : Node) (ts : List Tok) : Option Res :=
  match ts with
  | ⟨g, .op o⟩ :: ts' =>
    if Infix o = true ∧ joins md g ∧ m ≤ lbp o ∧ lbp o < rp lhs then
      match self (.expr md (rbp o)) ts' with
      | some (r, ts) => self (.loop md m (.bin lhs g o r)) ts
      | none => none
    else some (lhs, ts)
  | ⟨g, .ext a⟩ :: ts' =>
    if joins md g ∧ m ≤ postfixBp ∧ postfixBp < rp lhs then
      match ts' with
      | ⟨g2, .atom k s⟩ :: ts => self (.loop md m (.ext lhs g a g2 k s)) ts
      | _ => none
    else some (lhs, ts)
  | ⟨g, .open b⟩ :: ts' =>
    if joins md g ∧ m ≤ postfixBp ∧ postfixBp < rp lhs then
      match self .args ts' with
      | some (as, ⟨g2, .close b'⟩ :: ts) => if b' = b then self (.loop md m (.call lhs g b as g2)) ts else none
      | _ => none
    else some (lhs, ts)
  | _ => some (lhs, ts)

/-- A value, which may be missing. -/
def value (self : Job → List Tok → Option Res) (ts : List Tok) (k : Node → List Tok → Option Res) : Option Res :=
  if endArg ts then k .hole ts
  else match self (.expr .free argBp) ts with
    | some (e, ts) => k e ts
    | none => none

def argStep (self : Job → List Tok → Option Res) (ts : List Tok) : Option Res :=
  if namedStart ts then
    match ts with
    | ⟨g, .atom k s⟩ :: ⟨g2, .op .eq⟩ :: ts => value self ts fun e ts => some (.named g k s g2 e, ts)
    | _ => none
  else value self ts fun e ts => some (e, ts)

def argsStep (self : Job → List Tok → Option Res) (ts : List Tok) : Option Res :=
  match self .arg ts with
  | some (a, ⟨g, .comma⟩ :: ts) =>
    match self .args ts with
    | some (r, ts) => some (.comma a g r, ts)
    | none => none
  | r => r

def stmtsStep (self : Job → List Tok → Option Res) (md : Mode) (ts : List Tok) : Option Res :=
  if endStmts ts then some (.snil, ts)
  else match self (.expr md 0) ts with
    | some (e, ts) =>
      match self (.stmts md) (semis ts).2 with
      | some (r, ts2) => some (.scons e (semis ts).1 r, ts2)
      | none => none
    | none => none

def step (self : Job → List Tok → Option Res) : Job → List Tok → Option Res
  | .prim md, ts => primStep self md ts
  | .expr md m, ts =>
    match self (.prim md) ts with
    | some (e, ts) => self (.loop md m e) ts
    | none => none
  | .loop md m lhs, ts => loopStep self md m lhs ts
  | .arg, ts => argStep self ts
  | .args, ts => argsStep self ts
  | .stmts md, ts => stmtsStep self md ts

/-- The parser. -/
def run : Nat → Job → List Tok → Option Res
  | 0, _, _ => none
  | n + 1, j, ts => step (run n) j ts

/-- With enough fuel the parser finds `r`. -/
def Run (j : Job) (ts : List Tok) (r : Res) : Prop := ∃ N, ∀ n, N ≤ n → run n j ts = some r

theorem Run.det {j ts r r'} (h : Run j ts r) (h' : Run j ts r') : r = r' := by
  obtain ⟨n, h⟩ := h; obtain ⟨n', h'⟩ := h'
  have a := h (max n n') (Nat.le_max_left ..)
  have b := h' (max n n') (Nat.le_max_right ..)
  rw [a] at b; exact Option.some.inj b

theorem Run.step1 {j ts r} {j1 ts1 r1} (h1 : Run j1 ts1 r1)
    (h : ∀ self : Job → List Tok → Option Res, self j1 ts1 = some r1 → step self j ts = some r) : Run j ts r := by
  obtain ⟨n, h1⟩ := h1
  refine ⟨n + 1, fun k hk => ?_⟩
  cases k with
  | zero => omega
  | succ k => exact h _ (h1 k (by omega))

theorem Run.step0 {j ts r} (h : ∀ self : Job → List Tok → Option Res, step self j ts = some r) : Run j ts r :=
  ⟨1, fun k hk => by cases k with | zero => omega | succ k => exact h _⟩

theorem Run.step2 {j ts r} {j1 ts1 r1 j2 ts2 r2} (h1 : Run j1 ts1 r1) (h2 : Run j2 ts2 r2)
    (h : ∀ self : Job → List Tok → Option Res, self j1 ts1 = some r1 → self j2 ts2 = some r2 → step self j ts = some r) : Run j ts r := by
  obtain ⟨n, h1⟩ := h1; obtain ⟨n2, h2⟩ := h2
  refine ⟨n + n2 + 1, fun k hk => ?_⟩
  cases k with
  | zero => omega
  | succ k => exact h _ (h1 k (by omega)) (h2 k (by omega))

theorem Run.step3 {j ts r} {j1 ts1 r1 j2 ts2 r2 j3 ts3 r3} (h1 : Run j1 ts1 r1) (h2 : Run j2 ts2 r2) (h3 : Run j3 ts3 r3)
    (h : ∀ self : Job → List Tok → Option Res, self j1 ts1 = some r1 → self j2 ts2 = some r2 → self j3 ts3 = some r3 →
      step self j ts = some r) : Run j ts r := by
  obtain ⟨n, h1⟩ := h1; obtain ⟨n2, h2⟩ := h2; obtain ⟨n3, h3⟩ := h3
  refine ⟨n + n2 + n3 + 1, fun k hk => ?_⟩
  cases k with
  | zero => omega
  | succ k => exact h _ (h1 k (by omega)) (h2 k (by omega)) (h3 k (by omega))

/-- What comes behind the expression does not belong to it, except to a whole of which the expression is the left operand. -/
def Follow (md : Mode) (e : Node) : List Tok → Prop
  | [] => True
  | ⟨g, .op o⟩ :: _ => Infix o = true → joins md g → lbp o < rp e
  | ⟨g, .ext _⟩ :: _ => joins md g → postfixBp < rp e
  | ⟨g, .open _⟩ :: _ => joins md g → postfixBp < rp e
  | ⟨g, .else⟩ :: _ => joinsElse md g → openIf e = false
  | _ => True

/-- The loop stops. -/
theorem loop_stop {md e r b rest} (hf : Follow md e rest) (hb : rp e ≤ b) : Run (.loop md b r) rest (r, rest) := by
  refine Run.step0 fun self => ?_
  simp only [step, loopStep]
  split
  · split
    · next h => simp only [Follow] at hf; have := hf h.1 h.2.1; omega
    · rfl
  · split
    · next h => simp only [Follow] at hf; have := hf h.1; omega
    · rfl
  · split
    · next h => simp only [Follow] at hf; have := hf h.1; omega
    · rfl
  · rfl

theorem Follow.sub {md e r rest} (hf : Follow md e rest) (hr : rp e ≤ rp r) (ho : openIf e = false → openIf r = false) :
    Follow md r rest := by
  match rest with
  | [] => trivial
  | ⟨g, k⟩ :: _ =>
    cases k <;> simp only [Follow] at hf ⊢ <;> try trivial
    · intro a b; have := hf a b; omega
    · intro a; have := hf a; omega
    · intro a; exact ho (hf a)
    · intro a; have := hf a; omega

theorem rp_ge {o : Op} : 6 ≤ lbp o := by cases o <;> simp [lbp, level]

theorem follow_le (o : Op) : follow o ≤ rbp o := by
  unfold follow; split
  · unfold rbp; split <;> omega
  · omega

/-- Expressions start with something that is neither the end of an argument nor of the statements. -/
def starts : TK → Bool
  | .comma => false | .close _ => false | .rbrace => false | .semi => false | .else => false | .in => false | .ext _ => false
  | _ => true

theorem expr_start {e : Node} (he : isExpr e = true) : ∀ md, WF md e → ∃ t ts, toks e = t :: ts ∧ starts t.k = true := by
  induction e with
  | bin l g o r ihl _ =>
    intro md h
    obtain ⟨t, ts, h1, h2⟩ := ihl h.1 md h.2.2.1
    exact ⟨t, ts ++ ⟨g, .op o⟩ :: toks r, by simp [toks, h1], h2⟩
  | ext l g a g2 k s ihl =>
    intro md h
    obtain ⟨t, ts, h1, h2⟩ := ihl h.1 md h.2.1
    exact ⟨t, _, by simp only [toks, h1, List.cons_append]; rfl, h2⟩
  | call f g b args g2 ihf _ =>
    intro md h
    obtain ⟨t, ts, h1, h2⟩ := ihf h.1 md h.2.1
    exact ⟨t, _, by simp only [toks, h1, List.cons_append]; rfl, h2⟩
  | _ => first | (intro md h; exact ⟨_, _, by simp only [toks, List.cons_append]; rfl, rfl⟩) | exact (by cases he)


/-- The head ends every expression. -/
def Stop (md : Mode) : List Tok → Prop
  | [] => True
  | ⟨g, .op _⟩ :: _ => ¬ joins md g
  | ⟨g, .ext _⟩ :: _ => ¬ joins md g
  | ⟨g, .open _⟩ :: _ => ¬ joins md g
  | ⟨_, .else⟩ :: _ => False
  | _ => True

theorem Stop.follow {md e rest} (h : Stop md rest) : Follow md e rest := by
  match rest with
  | [] => trivial
  | ⟨g, k⟩ :: _ =>
    cases k <;> simp only [Follow, Stop] at h ⊢ <;> try trivial
    · intro _ a; exact absurd a h
    · intro a; exact absurd a h
    · intro a; exact absurd a h

theorem Stop.loop {md m e rest} (h : Stop md rest) : Run (.loop md m e) rest (e, rest) := by
  refine Run.step0 fun self => ?_
  simp only [step, loopStep]
  split
  · simp only [Stop] at h; rw [if_neg (fun a => h a.2.1)]
  · simp only [Stop] at h; rw [if_neg (fun a => h a.1)]
  · simp only [Stop] at h; rw [if_neg (fun a => h a.1)]
  · rfl

/-- The expression is found. -/
def A (e : Node) : Prop := isExpr e = true → ∀ md m rest R, WF md e → m ≤ lp e → Follow md e rest → Run (.loop md m e) rest R →
  Run (.expr md m) (toks e ++ rest) R

/-- The argument is found. -/
def B (e : Node) : Prop := isArg e = true → WF .free e → argBp ≤ lp e → ∀ rest, endArg rest = true →
  Run .arg (toks e ++ rest) (e, rest)

/-- The argument list is found. -/
def C (e : Node) : Prop := isArgs e = true → WF .free e → argBp ≤ lp e → ∀ g b rest,
  Run .args (toks e ++ ⟨g, .close b⟩ :: rest) (e, ⟨g, .close b⟩ :: rest)

/-- The statements are found. -/
def D (e : Node) : Prop := isStmts e = true → ∀ md, md ≠ .free → WF md e → ∀ rest, endStmts rest = true →
  Run (.stmts md) (toks e ++ rest) (e, rest)

/-- An expression with something behind it that ends it. -/
theorem A.stop {e} (h : A e) (he : isExpr e = true) {md m rest} (hw : WF md e) (hm : m ≤ lp e) (hs : Stop md rest) :
    Run (.expr md m) (toks e ++ rest) (e, rest) := h he md m rest _ hw hm hs.follow hs.loop

theorem endArg_stop {rest} (h : endArg rest = true) : Stop .free rest := by
  match rest with
  | [] => trivial
  | ⟨g, k⟩ :: _ => cases k <;> first | trivial | (simp [endArg] at h)

/-- From a primary. -/
theorem A.of_prim {e : Node} (h : ∀ md rest, WF md e → Follow md e rest → Run (.prim md) (toks e ++ rest) (e, rest)) : A e := by
  intro _ md m rest R hw _ hf hl
  exact Run.step2 (h md rest hw hf) hl fun self h1 h2 => by simp only [step, h1, h2]

/-- A body. -/
theorem A.body {e b} (hA : A b) (hb : isExpr b = true) {md rest} (hw : WF md b) (hl : bodyBp ≤ lp b) (hf : Follow md e rest)
    (hr : rp e ≤ bodyBp) (hrb : rp e ≤ rp b) (ho : openIf e = false → openIf b = false) :
    Run (.expr md bodyBp) (toks b ++ rest) (b, rest) :=
  hA hb md _ rest _ hw hl (hf.sub hrb ho) (loop_stop hf hr)

theorem Run.cond {self : Job → List Tok → Option Res} {m : Nat} {g g2 : Gap} {c : Node} {ts : List Tok} {k}
    (h : self (.expr .free m) (toks c ++ ⟨g2, .close .par⟩ :: ts) = some (c, ⟨g2, .close .par⟩ :: ts)) :
    RParser.cond self m (⟨g, .open .par⟩ :: (toks c ++ ⟨g2, .close .par⟩ :: ts)) k = k g c g2 ts := by
  simp only [RParser.cond, h]

theorem A.atom (g k s) : A (.atom g k s) := A.of_prim fun _ _ _ _ => Run.step0 fun _ => rfl

theorem A.paren {g e g2} (ih : A e) : A (.paren g e g2) := A.of_prim fun md rest hw _ => by
  refine Run.step1 (ih.stop hw.1 (rest := ⟨g2, .close .par⟩ :: rest) hw.2 (Nat.zero_le _) trivial) fun self h => ?_
  simp only [toks, List.cons_append, List.append_assoc, List.nil_append, step, primStep, Run.cond h]

theorem A.braces {g e g2} (ih : D e) : A (.braces g e g2) := A.of_prim fun md rest hw _ => by
  refine Run.step1 (ih hw.1 .brace (by decide) hw.2 (⟨g2, .rbrace⟩ :: rest) rfl) fun self h => ?_
  simp only [toks, List.cons_append, List.append_assoc, List.nil_append, step, primStep, h]

theorem A.un {g o e} (ih : A e) : A (.un g o e) := A.of_prim fun md rest hw hf => by
  obtain ⟨he, hw, k, hk, hl⟩ := hw
  refine Run.step1 (ih he md (2 * k) rest (e, rest) hw hl (hf.sub (by simp only [rp]; omega) (fun h => h)) (loop_stop hf (by simp only [rp, hk, Option.getD]; omega))) fun self h => ?_
  simp only [toks, List.cons_append, step, primStep, hk, h]

theorem A.bin {l g o r} (ihl : A l) (ihr : A r) : A (.bin l g o r) := by
  intro _ md m rest R hw hm hf hl
  obtain ⟨hel, her, hwl, hwr, hi, hj, h1, h2⟩ := hw
  simp only [lp] at hm
  have hr : Run (.expr md (rbp o)) (toks r ++ rest) (r, rest) :=
    ihr her md _ rest _ hwr h2 (hf.sub (by simp only [rp]; omega) (fun h => h))
      (loop_stop hf (by simp only [rp]; have := follow_le o; omega))
  have := ihl hel md m (⟨g, .op o⟩ :: (toks r ++ rest)) R hwl (by omega) (by simp only [Follow]; intro _ _; exact h1)
    (Run.step2 hr hl fun self a b => by
      simp only [step, loopStep]
      rw [if_pos ⟨hi, hj, by omega, h1⟩]
      simp only [a, b])
  simpa only [toks, List.append_assoc, List.cons_append] using this

theorem A.ext {l g a g2 k s} (ihl : A l) : A (.ext l g a g2 k s) := by
  intro _ md m rest R hw hm hf hl
  obtain ⟨hel, hwl, hj, h1⟩ := hw
  simp only [lp] at hm
  have := ihl hel md m (⟨g, .ext a⟩ :: ⟨g2, .atom k s⟩ :: rest) R hwl (by omega) (by simp only [Follow]; intro _; exact h1)
    (Run.step1 hl fun self b => by
      simp only [step, loopStep]
      rw [if_pos ⟨hj, by omega, h1⟩]
      simp only [b])
  simpa only [toks, List.append_assoc, List.cons_append, List.nil_append] using this

theorem A.call {f g b args g2} (ihf : A f) (iha : C args) : A (.call f g b args g2) := by
  intro _ md m rest R hw hm hf hl
  obtain ⟨hel, hwl, hj, h1, ha, hwa, hn⟩ := hw
  simp only [lp] at hm
  have := ihf hel md m (⟨g, .open b⟩ :: (toks args ++ ⟨g2, .close b⟩ :: rest)) R hwl (by omega) (by simp only [Follow]; intro _; exact h1)
    (Run.step2 (iha ha hwa hn g2 b rest) hl fun self a b => by
      simp only [step, loopStep]
      rw [if_pos ⟨hj, by omega, h1⟩]
      simp only [a, b, if_true])
  simpa only [toks, List.append_assoc, List.cons_append, List.nil_append] using this

theorem A.func {g la g2 ps g3 b} (ihp : C ps) (ihb : A b) : A (.func g la g2 ps g3 b) := A.of_prim fun md rest hw hf => by
  obtain ⟨hp, hwp, hn, hb, hwb, hl⟩ := hw
  refine Run.step2 (ihp hp hwp hn g3 .par (toks b ++ rest))
    (A.body ihb hb hwb hl hf (by simp only [rp]; omega) (by simp only [rp]; omega) (fun h => h)) fun self h h2 => ?_
  simp only [toks, List.cons_append, List.append_assoc, step, primStep, h, RParser.body, h2]

theorem A.ifE {g g2 c g3 t} (ihc : A c) (iht : A t) : A (.ifE g g2 c g3 t) := A.of_prim fun md rest hw hf => by
  obtain ⟨hc, hwc, hlc, ht, hwt, hl⟩ := hw
  refine Run.step2 (ihc.stop hc (rest := ⟨g3, .close .par⟩ :: (toks t ++ rest)) hwc hlc trivial)
    (A.body iht ht hwt hl hf (by simp only [rp]; omega) (by simp only [rp]; omega) (fun h => by cases h)) fun self h h2 => ?_
  simp only [toks, List.cons_append, List.append_assoc, step, primStep, Run.cond h, RParser.body, h2]
  split
  · split
    · next h => simp only [Follow, openIf] at hf; exact absurd (hf h) (by decide)
    · rfl
  · rfl

theorem A.ifElse {g g2 c g3 t g4 e} (ihc : A c) (iht : A t) (ihe : A e) : A (.ifElse g g2 c g3 t g4 e) := A.of_prim fun md rest hw hf => by
  obtain ⟨hc, hwc, hlc, ht, hwt, hl, ho, hj, he, hwe, hle⟩ := hw
  refine Run.step3 (ihc.stop hc (rest := ⟨g3, .close .par⟩ :: (toks t ++ ⟨g4, .else⟩ :: (toks e ++ rest))) hwc hlc trivial)
    (iht ht md bodyBp (⟨g4, .else⟩ :: (toks e ++ rest)) (t, ⟨g4, .else⟩ :: (toks e ++ rest)) hwt hl (fun _ => ho) (Run.step0 fun self => rfl))
    (A.body ihe he hwe hle hf (by simp only [rp]; omega) (by simp only [rp]; omega) (fun h => h)) fun self h h2 h3 => ?_
  simp only [toks, List.cons_append, List.append_assoc, step, primStep, Run.cond h, RParser.body, h2, h3, if_pos hj]

theorem A.whileE {g g2 c g3 t} (ihc : A c) (iht : A t) : A (.whileE g g2 c g3 t) := A.of_prim fun md rest hw hf => by
  obtain ⟨hc, hwc, hlc, ht, hwt, hl⟩ := hw
  refine Run.step2 (ihc.stop hc (rest := ⟨g3, .close .par⟩ :: (toks t ++ rest)) hwc hlc trivial)
    (A.body iht ht hwt hl hf (by simp only [rp]; omega) (by simp only [rp]; omega) (fun h => h)) fun self h h2 => ?_
  simp only [toks, List.cons_append, List.append_assoc, step, primStep, Run.cond h, RParser.body, h2]

theorem A.forE {g g2 gv v gi c g3 t} (ihc : A c) (iht : A t) : A (.forE g g2 gv v gi c g3 t) := A.of_prim fun md rest hw hf => by
  obtain ⟨hc, hwc, hlc, ht, hwt, hl⟩ := hw
  refine Run.step2 (ihc.stop hc (rest := ⟨g3, .close .par⟩ :: (toks t ++ rest)) hwc hlc trivial)
    (A.body iht ht hwt hl hf (by simp only [rp]; omega) (by simp only [rp]; omega) (fun h => h)) fun self h h2 => ?_
  simp only [toks, List.cons_append, List.append_assoc, step, primStep, h, RParser.body, h2]

theorem A.repE {g t} (iht : A t) : A (.repE g t) := A.of_prim fun md rest hw hf => by
  obtain ⟨ht, hwt, hl⟩ := hw
  refine Run.step1 (A.body iht ht hwt hl hf (by simp only [rp]; omega) (by simp only [rp]; omega) (fun h => h)) fun self h2 => ?_
  simp only [toks, List.cons_append, step, primStep, RParser.body, h2]

/-- Behind an expression comes the end of the argument: it is not empty and has no name. -/
theorem not_endArg {e : Node} (he : isExpr e = true) {md} (hw : WF md e) (rest) : endArg (toks e ++ rest) = false := by
  obtain ⟨⟨g, k⟩, ts, h1, h2⟩ := expr_start he md hw
  rw [h1]; cases k <;> first | rfl | (simp [starts] at h2)

/-- An expression that starts like a named argument is an assignment. -/
theorem lp_named {e : Node} : ∀ md, isExpr e = true → WF md e → ∀ g k s g2 ts rest, toks e ++ rest = ⟨g, .atom k s⟩ :: ⟨g2, .op .eq⟩ :: ts →
    argBp ≤ lp e → toks e = [⟨g, .atom k s⟩] := by
  induction e with
  | atom g k s =>
    intro md _ _ g' k' s' g2 ts rest h _
    have := (List.cons.inj h).1
    simp only [toks, this]
  | bin l g o r ihl _ =>
    intro md _ hw g' k' s' g2 ts rest h hl
    simp only [lp] at hl
    simp only [toks, List.append_assoc, List.cons_append] at h
    have h2 := ihl md hw.1 hw.2.2.1 g' k' s' g2 ts _ h (by omega)
    rw [h2] at h
    have ho : (⟨g, .op o⟩ : Tok) = ⟨g2, .op .eq⟩ := (List.cons.inj (List.cons.inj h).2).1
    have ho : o = .eq := TK.op.inj (congrArg Tok.k ho)
    subst ho
    exact absurd hl (by simp only [lbp, level, argBp]; omega)
  | ext l g a g3 k s ihl =>
    intro md _ hw g' k' s' g2 ts rest h hl
    simp only [lp] at hl
    simp only [toks, List.append_assoc, List.cons_append] at h
    have h2 := ihl md hw.1 hw.2.1 g' k' s' g2 ts _ h (by omega)
    rw [h2] at h
    have ho : (⟨g, .ext a⟩ : Tok) = ⟨g2, .op .eq⟩ := (List.cons.inj (List.cons.inj h).2).1
    cases ho
  | call f g b args g3 ihl _ =>
    intro md _ hw g' k' s' g2 ts rest h hl
    simp only [lp] at hl
    simp only [toks, List.append_assoc, List.cons_append] at h
    have h2 := ihl md hw.1 hw.2.1 g' k' s' g2 ts _ h (by omega)
    rw [h2] at h
    have ho : (⟨g, .open b⟩ : Tok) = ⟨g2, .op .eq⟩ := (List.cons.inj (List.cons.inj h).2).1
    cases ho
  | _ =>
    intro md he hw g' k' s' g2 ts rest h hl
    first
    | (have h := (List.cons.inj h).1; cases h; done)
    | (cases he; done)

theorem namedStart_arg {e : Node} {md} (he : isExpr e = true) (hw : WF md e) (hl : argBp ≤ lp e) : namedStart (toks e) = false := by
  match h : toks e with
  | ⟨g, .atom k s⟩ :: ⟨g2, .op .eq⟩ :: ts =>
    have := lp_named md he hw g k s g2 ts [] (by rw [List.append_nil, h]) hl
    rw [h] at this
    cases this
  | [] => rfl
  | [⟨_, k⟩] => cases k <;> rfl
  | ⟨_, k⟩ :: ⟨_, k2⟩ :: ts =>
    cases k <;> first | rfl | (cases k2 <;> first | rfl | (rename_i o; cases o <;> first | rfl | (
      have := lp_named md he hw _ _ _ _ _ [] (by rw [List.append_nil, h]) hl
      rw [h] at this
      cases this)))

theorem not_named {e : Node} {rest} (h : namedStart (toks e) = false) (hr : endArg rest = true) : namedStart (toks e ++ rest) = false := by
  match h1 : toks e with
  | [] =>
    match rest with
    | [] => rfl
    | ⟨_, k⟩ :: _ => cases k <;> first | rfl | (simp [endArg] at hr)
  | [⟨_, k⟩] =>
    match rest with
    | [] => cases k <;> rfl
    | ⟨_, k2⟩ :: _ => cases k2 <;> first | (cases k <;> rfl) | (simp [endArg] at hr)
  | ⟨_, k⟩ :: ⟨_, k2⟩ :: ts => rw [h1] at h; cases k <;> first | rfl | (cases k2 <;> first | rfl | (rename_i o; cases o <;> first | rfl | exact h))

theorem B.of_expr {e : Node} (he : isExpr e = true) (ih : A e) : B e := by
  intro _ hw hlp rest hr
  refine Run.step1 (ih.stop he (m := argBp) hw hlp (endArg_stop hr)) fun self h => ?_
  simp only [step, argStep, not_named (namedStart_arg he hw hlp) hr, value, not_endArg he hw, h, Bool.false_eq_true, if_false]

theorem B.hole : B .hole := by
  intro _ _ _ rest hr
  show Run .arg rest _
  refine Run.step0 fun self => ?_
  have h := @not_named .hole rest rfl hr
  have h : namedStart rest = false := h
  simp only [step, argStep, h, value, hr, Bool.false_eq_true, if_false, if_true]

theorem B.named {g k s g2 e} (ih : A e) : B (.named g k s g2 e) := by
  intro _ hw _ rest hr
  obtain ⟨hk, hw⟩ := hw
  have hn : ∀ ts, namedStart (⟨g, .atom k s⟩ :: ⟨g2, .op .eq⟩ :: ts) = true := fun _ => hk
  rcases hw with rfl | ⟨he, hw, hlp⟩
  · refine Run.step0 fun self => ?_
    simp only [step, argStep, toks, List.cons_append, List.nil_append, hn, if_true, value, hr]
  · refine Run.step1 (ih.stop he (m := argBp) hw hlp (endArg_stop hr)) fun self h => ?_
    simp only [step, argStep, toks, List.cons_append, hn, if_true, value, not_endArg he hw, h, Bool.false_eq_true, if_false]

theorem C.of_arg {e : Node} (he : isArg e = true) (ih : B e) : C e := by
  intro _ hw hn g b rest
  refine Run.step1 (ih he hw hn (⟨g, .close b⟩ :: rest) rfl) fun self h => ?_
  simp only [step, argsStep, h]

theorem C.comma {a g r} (iha : B a) (ihr : C r) : C (.comma a g r) := by
  intro _ hw _ g2 b rest
  obtain ⟨h1, h2, h3, h4, h5, h6⟩ := hw
  refine Run.step2 (iha h1 h2 h3 (⟨g, .comma⟩ :: (toks r ++ ⟨g2, .close b⟩ :: rest)) rfl) (ihr h4 h5 h6 g2 b rest) fun self a b => ?_
  simp only [step, argsStep, toks, List.append_assoc, List.cons_append, a, b]

theorem D.snil : D .snil := by
  intro _ md _ _ rest hr
  refine Run.step0 fun self => ?_
  simp only [step, stmtsStep, toks, List.nil_append, hr, if_true]

theorem semis_eq (gs : List Gap) (ts : List Tok) (h : ∀ g r, ts ≠ ⟨g, .semi⟩ :: r) :
    semis (gs.map (fun g => ⟨g, .semi⟩) ++ ts) = (gs, ts) := by
  induction gs with
  | nil =>
    match ts with
    | [] => rfl
    | ⟨g, k⟩ :: r => cases k <;> first | rfl | exact absurd rfl (h _ _)
  | cons g gs ih => simp only [List.map_cons, List.cons_append, semis, ih]

theorem stmts_cases {r : Node} (h : isStmts r = true) : r = .snil ∨ ∃ e gs r', r = .scons e gs r' := by
  cases r <;> first | exact .inl rfl | exact .inr ⟨_, _, _, rfl⟩ | cases h

/-- The first token of a list of statements. -/
theorem scons_start {e gs r} {md} (hw : WF md (.scons e gs r)) : ∃ g k ts, toks (.scons e gs r) = ⟨g, k⟩ :: ts ∧ starts k = true := by
  obtain ⟨⟨g, k⟩, ts', h1, h2⟩ := expr_start hw.1 md hw.2.1
  exact ⟨g, k, _, by simp only [toks, h1, List.cons_append]; rfl, h2⟩

/-- Behind a list of statements. -/
theorem stmts_head {r : Node} {md} (hr : isStmts r = true) (hw : WF md r) {rest} (he : endStmts rest = true) :
    ∀ g k ts, toks r ++ rest = ⟨g, k⟩ :: ts → k ≠ .semi ∧ k ≠ .else ∧ (r = .snil → k = .rbrace) := by
  intro g k ts h
  rcases stmts_cases hr with rfl | ⟨e, gs, r', rfl⟩
  · have h : rest = ⟨g, k⟩ :: ts := h
    subst h
    cases k <;> simp [endStmts] at he ⊢
  · obtain ⟨g', k', ts', h1, h2⟩ := scons_start hw
    rw [h1] at h
    have hk : k' = k := congrArg Tok.k (List.cons.inj h).1
    subst hk
    refine ⟨?_, ?_, fun h => by (cases h)⟩ <;> rintro rfl <;> cases h2

theorem D.scons {e gs r} (ihe : A e) (ihr : D r) : D (.scons e gs r) := by
  intro _ md hmd hw rest hr
  obtain ⟨h1, h2, h3, h4, h5⟩ := hw
  have hd := stmts_head h3 h4 hr
  have hs : Stop md (gs.map (fun g => ⟨g, .semi⟩) ++ (toks r ++ rest)) := by
    cases gs with
    | cons => trivial
    | nil =>
      simp only [List.map_nil, List.nil_append]
      generalize h6 : toks r ++ rest = tt
      match tt with
      | [] => trivial
      | ⟨g, k⟩ :: ts =>
        obtain ⟨a, b, c⟩ := hd g k ts h6
        rcases stmts_cases h3 with hsn | ⟨e', gs', r', rfl⟩
        · rw [c hsn]; trivial
        · have hg : g.nl = true := by
            have h5 := h5 (by intro h; cases h) rfl
            obtain ⟨g', k', ts', h7, h8⟩ := scons_start h4
            rw [h7] at h5 h6
            have hk : g' = g := congrArg Tok.gap (List.cons.inj h6).1
            rw [← hk]; exact h5
          have hj : ¬ joins md g := fun hj => by
            rcases hj with hj | hj
            · exact hmd hj
            · rw [hg] at hj; cases hj
          cases k <;> simp only [Stop] <;> first | trivial | exact hj | exact b rfl
  have he : endStmts (toks (.scons e gs r) ++ rest) = false := by
    obtain ⟨⟨g, k⟩, ts, h7, h8⟩ := expr_start h1 md h2
    simp only [toks, h7, List.cons_append]
    cases k <;> simp [endStmts, starts] at h8 ⊢
  refine Run.step2 (ihe.stop h1 h2 (Nat.zero_le _) hs) (ihr h3 md hmd h4 rest hr) fun self a b => ?_
  simp only [step, stmtsStep, he, Bool.false_eq_true, if_false]
  simp only [toks, List.append_assoc, a]
  rw [semis_eq _ _ (fun g r' h => (hd g _ r' h).1 rfl)]
  simp only [b]

theorem all (e : Node) : A e ∧ B e ∧ C e ∧ D e := by
  have key : ∀ e : Node, isExpr e = true → A e → A e ∧ B e ∧ C e ∧ D e := fun e he h =>
    ⟨h, .of_expr he h, .of_arg (by cases e <;> first | rfl | cases he) (.of_expr he h), fun h' => by rcases stmts_cases h' with rfl | ⟨_, _, _, rfl⟩ <;> cases he⟩
  induction e with
  | atom g k s => exact key _ rfl (.atom g k s)
  | paren g e g2 ih => exact key _ rfl (.paren ih.1)
  | braces g e g2 ih => exact key _ rfl (.braces ih.2.2.2)
  | un g o e ih => exact key _ rfl (.un ih.1)
  | bin l g o r ihl ihr => exact key _ rfl (.bin ihl.1 ihr.1)
  | ext l g a g2 k s ih => exact key _ rfl (.ext ih.1)
  | call f g b args g2 ihf iha => exact key _ rfl (.call ihf.1 iha.2.2.1)
  | func g la g2 ps g3 b ihp ihb => exact key _ rfl (.func ihp.2.2.1 ihb.1)
  | ifE g g2 c g3 t ihc iht => exact key _ rfl (.ifE ihc.1 iht.1)
  | ifElse g g2 c g3 t g4 e ihc iht ihe => exact key _ rfl (.ifElse ihc.1 iht.1 ihe.1)
  | whileE g g2 c g3 t ihc iht => exact key _ rfl (.whileE ihc.1 iht.1)
  | forE g g2 gv v gi c g3 t ihc iht => exact key _ rfl (.forE ihc.1 iht.1)
  | repE g t iht => exact key _ rfl (.repE iht.1)
  | hole => exact ⟨fun h => by (cases h), .hole, .of_arg rfl .hole, fun h => by (cases h)⟩
  | named g k s g2 e ih => exact ⟨fun h => by (cases h), .named ih.1, .of_arg rfl (.named ih.1), fun h => by (cases h)⟩
  | comma a g r iha ihr => exact ⟨fun h => by (cases h), fun h => by (cases h), .comma iha.2.1 ihr.2.2.1, fun h => by (cases h)⟩
  | snil => exact ⟨fun h => by (cases h), fun h => by (cases h), fun h => by (cases h), .snil⟩
  | scons e gs r ihe ihr => exact ⟨fun h => by (cases h), fun h => by (cases h), fun h => by (cases h), .scons ihe.1 ihr.2.2.2⟩

end RParser

/-- The tokens of a program determine the program. -/
theorem C50_grammar_unambiguous {ts : List Tok} {p p' : Node} (h : Parses ts p) (h' : Parses ts p') : p = p' := by
  obtain ⟨a, b, c⟩ := h
  obtain ⟨a', b', c'⟩ := h'
  have r := (RParser.all p).2.2.2 a .top (by decide) b [] rfl
  have r' := (RParser.all p').2.2.2 a' .top (by decide) b' [] rfl
  rw [c] at r; rw [c'] at r'
  exact congrArg Prod.fst (r.det r')

end Jarl

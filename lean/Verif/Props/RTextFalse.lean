import Verif.Props.RTextExamples
/-!
# C66, C22: what is not true
-/
namespace Jarl
open Spec

/-- What the parser finds is the only program there can be. -/
theorem parse_is {ts : List Tok} {q p : Node} (h : ∀ n, (RParser.run (n + 60) (.stmts .top) ts).map (·.1) = some q) (hp : Parses ts p) : p = q := by
  obtain ⟨a, b, c⟩ := hp
  obtain ⟨N, hr⟩ := (RParser.all p).2.2.2 a .top (by decide) b [] rfl
  have h1 := hr (N + 60) (by omega)
  have h2 := h N
  rw [← c] at h2
  rw [List.append_nil] at h1
  rw [h1] at h2
  exact Option.some.inj h2

/-- `(x) == NA`, directly behind `else`. -/
def elseZ : Zip := ⟨[.ieE .none .none (nm (cs! "a")) .none (nm (cs! "b")) .none, stmt1], op (.paren .none x' .none) .eq2 (.atom .none .na (cs! "NA"))⟩

def elseEd : Edit := (equalsNa elseZ).getD ⟨elseZ, [], true⟩

def elseText : Str := cs! "if (a) b else(x) == NA\n"

def elseSrc : Src := (lex elseText).getD ⟨[], []⟩

/-- Blanks are needed: `if (a) b else(x) == NA` becomes `if (a) b elseis.na((x))`, which R cannot read (finding F42). -/
theorem C66_false_glued : ReadsAs elseText elseSrc elseZ.prog ∧ FixTexts keepingRules elseZ.prog [(elseEd, cs! "is.na((x))")] ∧
    applyFixes [textFix elseSrc elseEd (cs! "is.na((x))")] elseText = some (false, cs! "if (a) b elseis.na((x))\n") ∧
    ∀ src p, ¬ ReadsAs (cs! "if (a) b elseis.na((x))\n") src p := by
  refine ⟨⟨by decide +kernel, parses_of (by decide +kernel)⟩, ?_, by decide +kernel, ?_⟩
  · intro e he
    simp only [List.mem_cons, List.not_mem_nil, or_false] at he
    subst he
    refine ⟨⟨(cs! "equals_na", equalsNa), by simp [keepingRules], elseZ, rfl, rfl, by decide +kernel⟩, ((lex (cs! "is.na((x))")).getD ⟨[], []⟩).pieces, ⟨by decide +kernel, by decide +kernel, ?_⟩, airy_of (by decide +kernel)⟩
    exact ⟨_, _, rfl, by decide +kernel⟩
  · intro src p h
    have ht : ((lex (cs! "if (a) b elseis.na((x))\n")).getD ⟨[], []⟩).toks = [tk .if, tk (.open .par), tk (.atom .id (cs! "a")), tk (.close .par), tk (.atom .id (cs! "b")),
      tk (.atom .id (cs! "elseis.na")), tk (.open .par), tk (.open .par), tk (.atom .id (cs! "x")), tk (.close .par), tk (.close .par)] := by decide +kernel
    have hs : lex (cs! "if (a) b elseis.na((x))\n") = some ((lex (cs! "if (a) b elseis.na((x))\n")).getD ⟨[], []⟩) := by decide +kernel
    have := h.1.symm.trans hs
    cases this
    rw [ReadsAs, ht] at h
    have hq := parse_is (q := .scons (.ifE .none .none (nm (cs! "a")) .none (nm (cs! "b"))) [] (prog1 (cl (cs! "elseis.na") (.paren .none x' .none)))) (fun n => by rfl) h.2
    subst hq
    have h' := h.2.2.1.2.2.2.2 (by simp [prog1]) rfl
    cases h'

/-! ### A file whose fixing never ends -/

/-- `fixed = TRUE` -/
def fixedYes : Node := arg (cs! "fixed") yes

/-- The arguments: `a`, then `fixed = TRUE` this many times. -/
def withMore (a : Node) : Nat → Node
  | 0 => a
  | k + 1 => .comma a .none (withMore fixedYes k)

/-- `grep("b", x, fixed = T)` -/
def innerGrep : Node := cl (cs! "grep") (.comma (str (cs! "\"b\"")) .none (.comma x' .none (arg (cs! "fixed") (nm (cs! "T")))))

/-- The arguments of `grep("a", grep("b", x, fixed = T), fixed = T, fixed = TRUE, …)`. -/
def grepArgs (k : Nat) : Node := .comma (str (cs! "\"a\"")) .none (.comma innerGrep .none (withMore (arg (cs! "fixed") (nm (cs! "T"))) k))

/-- The program. -/
def grepProg (k : Nat) : Node := prog1 (cl (cs! "grep") (grepArgs k))

/-- The tokens of `, fixed = TRUE`, this many times. -/
def moreToks (k : Nat) : List Tok := (List.replicate k [tk .comma, tk (.atom .id (cs! "fixed")), tk (.op .eq), tk (.atom .true (cs! "TRUE"))]).flatten

/-- The same with blanks. -/
def morePieces (k : Nat) : List Piece := (List.replicate k [⟨[], .comma⟩, ⟨[' '], .atom .id (cs! "fixed")⟩, ⟨[' '], .op .eq⟩, ⟨[' '], .atom .true (cs! "TRUE")⟩]).flatten

/-- The pieces in front of them. -/
def grepPre : List Piece := ((lex (cs! "grep(\"a\", grep(\"b\", x, fixed = T), fixed = T)\n")).getD ⟨[], []⟩).pieces.dropLast

/-- The file. -/
def grepSrc (k : Nat) : Src := ⟨grepPre ++ morePieces k ++ [⟨[], .close .par⟩], ['\n']⟩

/-- The text of the file. -/
def endless (k : Nat) : Str := cs! "grep(\"a\", grep(\"b\", x, fixed = T), fixed = T" ++ (List.replicate k (cs! ", fixed = TRUE")).flatten ++ cs! ")\n"

theorem toks_withMore (a : Node) (k : Nat) : toks (withMore a k) = toks a ++ moreToks k := by
  induction k generalizing a with
  | zero => simp [withMore, moreToks]
  | succ k ih => simp [withMore, toks, ih, moreToks, List.replicate_succ, fixedYes, arg, yes, tk]

theorem morePieces_toks (k : Nat) : piecesToks (morePieces k) = moreToks k := by
  induction k with
  | zero => rfl
  | succ k ih => simp only [morePieces, moreToks, List.replicate_succ, List.flatten_cons] at ih ⊢; rw [piecesToks_append, ih]; rfl

theorem grepPre_toks : piecesToks grepPre ++ [tk (.close .par)] = toks (grepProg 0) := by decide +kernel

theorem grepSrc_toks (k : Nat) : (grepSrc k).toks = toks (grepProg k) := by
  have h := grepPre_toks
  simp only [grepProg, prog1, cl, grepArgs, toks, toks_withMore, Src.toks, grepSrc, piecesToks_append, morePieces_toks, withMore, moreToks, List.append_nil] at h ⊢
  have h' : piecesToks grepPre = (toks (nm (cs! "grep")) ++ (⟨.none, .open .par⟩ : Tok) :: (toks (str (cs! "\"a\"")) ++ (⟨.none, .comma⟩ : Tok) :: (toks innerGrep ++ (⟨.none, .comma⟩ : Tok) :: toks (arg (cs! "fixed") (nm (cs! "T")))))) := by
    decide +kernel
  rw [h']
  simp [piecesToks, gapOf_nil]

theorem withMore_wf (a : Node) (ha : isArg a = true ∧ WF .free a ∧ argBp ≤ lp a) (k : Nat) : isArgs (withMore a k) = true ∧ WF .free (withMore a k) ∧ argBp ≤ lp (withMore a k) := by
  induction k generalizing a with
  | zero =>
    refine ⟨?_, ha.2⟩
    have := ha.1
    cases a <;> first | rfl | exact this
  | succ k ih =>
    obtain ⟨h1, h2, h3⟩ := ih fixedYes ⟨rfl, wf_WF (by decide +kernel), by decide +kernel⟩
    exact ⟨rfl, ⟨ha.1, ha.2.1, ha.2.2, h1, h2, h3⟩, (show argBp ≤ topBp by decide)⟩

theorem grep_parses (k : Nat) : Parses (toks (grepProg k)) (grepProg k) := by
  have hT : isArg (arg (cs! "fixed") (nm (cs! "T"))) = true ∧ WF .free (arg (cs! "fixed") (nm (cs! "T"))) ∧ argBp ≤ lp (arg (cs! "fixed") (nm (cs! "T"))) :=
    ⟨rfl, wf_WF (by decide +kernel), by decide +kernel⟩
  obtain ⟨h1, h2, h3⟩ := withMore_wf _ hT k
  have hI : WF .free innerGrep := wf_WF (by decide +kernel)
  refine ⟨rfl, ⟨rfl, ⟨rfl, trivial, .inr rfl, by decide +kernel, rfl, ⟨rfl, trivial, by decide +kernel, rfl, ⟨rfl, hI, by decide +kernel, h1, h2, h3⟩, ?_⟩, ?_⟩, rfl, trivial, fun h => absurd rfl h⟩, rfl⟩
  all_goals exact (show argBp ≤ topBp by decide)

/-- Tokens that need no blanks around them. -/
theorem airy_plain : ∀ (ps : List Piece) (prev : Option TK), (∀ p ∈ ps, p.k ≠ .else ∧ p.k ≠ .in ∧ p.k ≠ .repeat ∧ p.k ≠ .op .lt) →
    (prev ≠ some .else ∧ prev ≠ some .in ∧ prev ≠ some .repeat ∧ prev ≠ some (.op .lt)) → Airy prev ps := by
  intro ps
  induction ps with
  | nil => intro _ _ _; trivial
  | cons p ps ih =>
    intro prev h hp
    obtain ⟨a1, a2, a3, a4⟩ := h p (List.mem_cons_self ..)
    refine ⟨fun _ => ⟨hp.1, hp.2.1, hp.2.2.1, hp.2.2.2, a1, a2⟩, ih _ (fun q hq => h q (List.mem_cons_of_mem _ hq)) ⟨?_, ?_, ?_, ?_⟩⟩ <;> (intro e; exact absurd (Option.some.inj e) (by assumption))

/-- The pieces of the file are those of the file with one `fixed = TRUE`. -/
theorem grep_pieces (k : Nat) : ∀ p ∈ (grepSrc k).pieces, p ∈ (grepSrc 1).pieces := by
  intro p hp
  simp only [grepSrc, List.mem_append] at hp ⊢
  rcases hp with (h | h) | h
  · exact .inl (.inl h)
  · refine .inl (.inr ?_)
    simp only [morePieces, List.mem_flatten, List.mem_replicate] at h ⊢
    obtain ⟨l, ⟨_, rfl⟩, h⟩ := h
    exact ⟨_, ⟨by decide, rfl⟩, h⟩
  · exact .inr h

theorem grep_one : lex (grepSrc 1).text = some (grepSrc 1) := by decide +kernel

theorem grep_good (k : Nat) : ∀ p ∈ (grepSrc k).pieces, gapOk false p.gap = true ∧ Good p.k := fun p hp => (lexN_inv _ _ _ _ grep_one).2.1 p (grep_pieces k p hp)

theorem grep_airy (k : Nat) : Airy none (grepSrc k).pieces := by
  refine airy_plain _ _ (fun p hp => ?_) ⟨by simp, by simp, by simp, by simp⟩
  have : ∀ p ∈ (grepSrc 1).pieces, p.k ≠ .else ∧ p.k ≠ .in ∧ p.k ≠ .repeat ∧ p.k ≠ .op .lt := by decide +kernel
  exact this p (grep_pieces k p hp)

theorem morePieces_text (k : Nat) : piecesText (morePieces k) = (List.replicate k (cs! ", fixed = TRUE")).flatten := by
  induction k with
  | zero => rfl
  | succ k ih =>
    simp only [morePieces, List.replicate_succ, List.flatten_cons] at ih ⊢
    rw [piecesText_append, ih]
    rfl

theorem grepPre_text : piecesText grepPre = cs! "grep(\"a\", grep(\"b\", x, fixed = T), fixed = T" := by decide +kernel

theorem grepSrc_text (k : Nat) : (grepSrc k).text = endless k := by
  simp only [Src.text, grepSrc, piecesText_append, morePieces_text, grepPre_text, endless, List.append_assoc]
  rfl

/-- R reads all these texts. -/
theorem endless_reads (k : Nat) : ReadsAs (endless k) (grepSrc k) (grepProg k) := by
  have hp : Parses (grepSrc k).toks (grepProg k) := by rw [grepSrc_toks]; exact grep_parses k
  refine ⟨?_, hp⟩
  rw [← grepSrc_text]
  exact lex_of_parses (grep_good k) (grep_airy k) (show TailOk ['\n'] by unfold TailOk; decide +kernel) hp

/-- The outer call. -/
def grepZ (k : Nat) : Zip := ⟨[stmt1], cl (cs! "grep") (grepArgs k)⟩

/-- The inner call. -/
def grepZ2 (k : Nat) : Zip := ⟨[.commaA .none (withMore (arg (cs! "fixed") (nm (cs! "T"))) k), .commaR (str (cs! "\"a\"")) .none, .callA (nm (cs! "grep")) .none .par .none, stmt1], innerGrep⟩

theorem argList_withMore (a : Node) (h : ∀ x g r, a ≠ .comma x g r) (k : Nat) : argList (withMore a k) = a :: List.replicate k fixedYes := by
  induction k generalizing a with
  | zero => cases a <;> first | rfl | exact absurd rfl (h _ _ _)
  | succ k ih => rw [withMore, argList, ih fixedYes (by simp [fixedYes, arg]), List.replicate_succ]

theorem joinComma_more (a : List Tok) (k : Nat) : joinComma (a :: List.replicate k (trimmed fixedYes)) = a ++ moreToks k := by
  induction k generalizing a with
  | zero => simp [joinComma, moreToks]
  | succ k ih =>
    rw [List.replicate_succ]
    show a ++ tk .comma :: joinComma (trimmed fixedYes :: List.replicate k (trimmed fixedYes)) = _
    rw [ih]
    simp [moreToks, List.replicate_succ, trimmed, fixedYes, arg, yes, toks, setHead, tk]

theorem moreToks_succ (k : Nat) : moreToks k ++ [tk .comma, tk (.atom .id (cs! "fixed")), tk (.op .eq), tk (.atom .true (cs! "TRUE"))] = moreToks (k + 1) := by
  simp only [moreToks, List.replicate_succ', List.flatten_append, List.flatten_cons, List.flatten_nil, List.append_nil]

theorem more_calm (k : Nat) : (moreToks k).any (·.gap.comment) = false := by
  induction k with
  | zero => rfl
  | succ k ih => rw [← moreToks_succ, List.any_append, ih]; rfl

theorem grep_outer (k : Nat) : fixedRegex (grepZ k) = some ⟨grepZ k, toks (cl (cs! "grep") (grepArgs (k + 1))), false⟩ := by
  have hi : items (grepArgs k) = str (cs! "\"a\"") :: innerGrep :: arg (cs! "fixed") (nm (cs! "T")) :: List.replicate k fixedYes := by
    rw [items, if_neg (by simp [grepArgs])]
    simp only [grepArgs, argList, argList_withMore _ (show ∀ x g r, arg (cs! "fixed") (nm (cs! "T")) ≠ .comma x g r by simp [arg])]
  have hn : ∀ n : Str, n ≠ cs! "fixed" → argByName (items (grepArgs k)) n = none ∧ unnamedArgs (items (grepArgs k)) = [str (cs! "\"a\""), innerGrep] := by
    intro n h
    rw [hi]
    constructor
    · refine List.find?_eq_none.mpr fun a ha => ?_
      simp only [List.mem_cons, List.mem_replicate] at ha
      rcases ha with rfl | rfl | rfl | ⟨_, rfl⟩ <;> simp [str, innerGrep, cl, arg, fixedYes, argName, Ne.symm h]
    · simp [unnamedArgs, argName, str, innerGrep, cl, arg, fixedYes]
  have h1 : valueBy (items (grepArgs k)) (cs! "fixed") 5 = some (nm (cs! "T")) := by rw [hi]; rfl
  have h2 : valueBy (items (grepArgs k)) (cs! "ignore.case") 2 = none := by
    obtain ⟨a, b⟩ := hn (cs! "ignore.case") (by decide)
    rw [valueBy, argBy, a, b]; rfl
  have h3 : valueBy (items (grepArgs k)) (cs! "pattern") 0 = some (str (cs! "\"a\"")) := by
    obtain ⟨a, b⟩ := hn (cs! "pattern") (by decide)
    rw [valueBy, argBy, a, b]; rfl
  have hc : containsComments (grepZ k) = false := by
    have : innerComments (toks (cl (cs! "grep") (grepArgs k))) = false := by
      have hm := more_calm k
      simp only [cl, grepArgs, toks, toks_withMore, innerComments, nm, str, innerGrep, x', arg, List.any_append, List.any_cons, List.any_nil, List.cons_append, List.nil_append, hm]
      rfl
    simp only [containsComments, grepZ, this]
    rfl
  have hcontent : callText (cs! "grep") (joinComma ((items (grepArgs k)).map trimmed) ++ [tk .comma, tk (.atom .id (cs! "fixed")), tk (.op .eq), tk (.atom .true (cs! "TRUE"))]) =
      toks (cl (cs! "grep") (grepArgs (k + 1))) := by
    rw [hi]
    simp only [List.map_cons, List.map_replicate]
    have e : ∀ a b c : List Tok, ∀ l, joinComma (a :: b :: c :: l) = a ++ tk .comma :: (b ++ tk .comma :: joinComma (c :: l)) := by intro a b c l; rfl
    rw [e, joinComma_more]
    simp only [cl, grepArgs, toks, toks_withMore, ← moreToks_succ, callText, nm, List.append_assoc, List.cons_append]
    rfl
  simp only [fixedRegex, grepZ, cl, asCall, Option.bind_eq_bind, Option.bind_some]
  simp only [show fnName (nm (cs! "grep")) = cs! "grep" from rfl]
  rw [if_pos (by decide)]
  simp only [Option.bind_some, h1, h3]
  rw [show (if cs! "grep" ∈ [cs! "gsub", cs! "sub"] then 3 else 2) = 2 by decide, h2]
  show some (fixAt (grepZ k) _) = _
  rw [hcontent, fixAt, hc]
  rfl

theorem grep_inner (k : Nat) : fixedRegex (grepZ2 k) = some ⟨grepZ2 k, ((fixedRegex (grepZ2 0)).getD ⟨grepZ2 0, [], true⟩).content, false⟩ := by
  rfl

/-- The edits. -/
def grepEds (k : Nat) : List (Edit × Str) :=
  [(⟨grepZ k, toks (cl (cs! "grep") (grepArgs (k + 1))), false⟩, piecesText (grepSrc (k + 1)).pieces),
   (⟨grepZ2 k, ((fixedRegex (grepZ2 0)).getD ⟨grepZ2 0, [], true⟩).content, false⟩, cs! "grep(\"b\", x, fixed = T, fixed = TRUE)")]

/-- The rule that adds `fixed = TRUE`, alone. -/
def onlyFixed (n : Str) : Bool := n = cs! "fixed_regex"

theorem more_quiet (want : Op) (k : Nat) : ∀ fs a s t, (visit fs (withMore (.named .none .id a .none (.atom .none s t)) k)).flatMap
    (fun v => ((rulesAt v).filter onlyFixed).flatMap (fun n => fixesOf want n v)) = [] := by
  induction k with
  | zero => intro fs a s t; cases s <;> rfl
  | succ k ih =>
    intro fs a s t
    have h1 := ih (.commaR (.named .none .id a .none (.atom .none s t)) .none :: fs) (cs! "fixed") .true (cs! "TRUE")
    have h0 : ∀ fs a s t, (visit fs (.named .none .id a .none (.atom .none s t))).flatMap (fun v => ((rulesAt v).filter onlyFixed).flatMap (fun n => fixesOf want n v)) = [] := by
      intro fs a s t; cases s <;> rfl
    rw [withMore, visit, List.flatMap_append, h0]
    exact h1

theorem grep_proposed (want : Op) (k : Nat) : proposed onlyFixed want (grepProg k) = (grepEds k).map (·.1) := by
  have hf : ∀ z, fixesOf want (cs! "fixed_regex") (.node z) = [z].filterMap fixedRegex := by
    intro z
    have : (fixRules want).filter (fun q => q.1 = cs! "fixed_regex") = [(cs! "fixed_regex", fixedRegex)] := rfl
    simp only [fixesOf, this, List.filterMap_cons, List.filterMap_nil]
  have hr : callRules.filter onlyFixed = [cs! "fixed_regex"] := by decide
  have hq := more_quiet want k
  have hcall : ∀ fs f g args g2, ((rulesAt (.node ⟨fs, .call f g .par args g2⟩)).filter onlyFixed).flatMap (fun n => fixesOf want n (.node ⟨fs, .call f g .par args g2⟩)) =
      [(⟨fs, .call f g .par args g2⟩ : Zip)].filterMap fixedRegex := by
    intro fs f g args g2
    show (callRules.filter onlyFixed).flatMap _ = _
    rw [hr, List.flatMap_cons, List.flatMap_nil, List.append_nil, hf]
  have hatom : ∀ fs g k s, ((rulesAt (.node ⟨fs, .atom g k s⟩)).filter onlyFixed).flatMap (fun n => fixesOf want n (.node ⟨fs, .atom g k s⟩)) = [] := by
    intro fs g k s; cases k <;> rfl
  simp only [proposed, reported, visits, grepProg, prog1, cl, grepArgs, visit, List.flatMap_append, List.flatMap_cons, List.flatMap_nil, innerGrep, nm, str, x', arg, isNs, hcall, hatom, hq,
    Bool.false_eq_true, and_false, if_false, List.append_nil, List.nil_append]
  have h1 : [grepZ k].filterMap fixedRegex = [⟨grepZ k, toks (cl (cs! "grep") (grepArgs (k + 1))), false⟩] := by rw [List.filterMap_cons, grep_outer]; rfl
  have h2 : [grepZ2 k].filterMap fixedRegex = [⟨grepZ2 k, ((fixedRegex (grepZ2 0)).getD ⟨grepZ2 0, [], true⟩).content, false⟩] := by rw [List.filterMap_cons, grep_inner]; rfl
  exact (congr (congrArg (· ++ ·) h1) h2 : [grepZ k].filterMap fixedRegex ++ [grepZ2 k].filterMap fixedRegex = _)


theorem piecesText_grep (k : Nat) : piecesText (grepSrc k).pieces = cs! "grep(\"a\", grep(\"b\", x, fixed = T), fixed = T" ++ (List.replicate k (cs! ", fixed = TRUE")).flatten ++ cs! ")" := by
  simp only [grepSrc, piecesText_append, morePieces_text, grepPre_text]
  rfl

theorem grep_inner_text : lex (cs! "grep(\"b\", x, fixed = T, fixed = TRUE)") = some ⟨((lex (cs! "grep(\"b\", x, fixed = T, fixed = TRUE)")).getD ⟨[], []⟩).pieces, []⟩ ∧
    piecesToks ((lex (cs! "grep(\"b\", x, fixed = T, fixed = TRUE)")).getD ⟨[], []⟩).pieces = ((fixedRegex (grepZ2 0)).getD ⟨grepZ2 0, [], true⟩).content := by
  constructor <;> decide +kernel

theorem grep_texts (k : Nat) : FixTexts keepingRules (grepProg k) (grepEds k) := by
  intro e he
  simp only [grepEds, List.mem_cons, List.not_mem_nil, or_false] at he
  rcases he with rfl | rfl
  · refine ⟨⟨(cs! "fixed_regex", fixedRegex), by simp [keepingRules], grepZ k, rfl, grep_outer k, ?_⟩, (grepSrc (k + 1)).pieces, ⟨?_, ?_, ?_⟩, grep_airy _⟩
    · have hm := more_calm k
      simp only [grepZ, cl, grepArgs, toks, toks_withMore, innerComments, nm, str, innerGrep, x', arg, List.any_append, List.any_cons, List.any_nil, List.cons_append, List.nil_append, hm]
      rfl
    · have := lex_of_parses (src := ⟨(grepSrc (k + 1)).pieces, []⟩) (grep_good _) (grep_airy _) (show TailOk [] by unfold TailOk; rfl) (p := grepProg (k + 1)) (by
        show Parses (grepSrc (k + 1)).toks _
        rw [grepSrc_toks]; exact grep_parses _)
      simpa [Src.text] using this
    · show (grepSrc (k + 1)).toks = _
      rw [grepSrc_toks]
      simp [grepProg, prog1, toks]
    · exact ⟨grepPre.head (by decide +kernel), grepPre.tail ++ morePieces (k + 1) ++ [⟨[], .close .par⟩], by
        simp only [grepSrc, List.append_assoc]
        conv => lhs; rw [← List.cons_head_tail (show grepPre ≠ [] by decide +kernel)]
        rfl, by decide +kernel⟩
  · refine ⟨⟨(cs! "fixed_regex", fixedRegex), by simp [keepingRules], grepZ2 k, rfl, grep_inner k, by rfl⟩,
      ((lex (cs! "grep(\"b\", x, fixed = T, fixed = TRUE)")).getD ⟨[], []⟩).pieces, ⟨grep_inner_text.1, grep_inner_text.2, ?_⟩, airy_of (by decide +kernel)⟩
    exact ⟨_, _, rfl, by decide +kernel⟩

/-- The byte ranges of the fixes. -/
theorem grep_ranges (k : Nat) : (grepEds k).map (fun e => textFix (grepSrc k) e.1 e.2) =
    [⟨piecesText (grepSrc (k + 1)).pieces, 0, blen (piecesText (grepSrc k).pieces), false⟩, ⟨cs! "grep(\"b\", x, fixed = T, fixed = TRUE)", 10, 33, false⟩] := by
  have hl : (toks (cl (cs! "grep") (grepArgs k))).length = (grepSrc k).pieces.length := by
    have := congrArg List.length (grepSrc_toks k)
    simp only [Src.toks, piecesToks, List.length_map, grepProg, prog1, toks, List.append_nil, List.map_nil] at this
    simp [this]
  have h1 : trimmedRange (grepSrc k).pieces 0 (0 + (toks (cl (cs! "grep") (grepArgs k))).length) = (0, blen (piecesText (grepSrc k).pieces)) := by
    rw [hl, Nat.zero_add, trimmedRange, List.take_length, List.take_zero, List.drop_zero]
    congr 1
  have h2 : trimmedRange (grepSrc k).pieces 4 14 = (10, 33) := by
    have e : ∀ n, n ≤ 15 → (grepSrc k).pieces.take n = grepPre.take n := by
      intro n hn
      rw [grepSrc]
      simp only [List.append_assoc]
      exact List.take_append_of_le_length (Nat.le_trans hn (show 15 ≤ grepPre.length by decide +kernel))
    have d : ((grepSrc k).pieces.drop 4).head? = (grepPre.drop 4).head? := by
      simp only [List.head?_drop]
      rw [grepSrc]
      simp only [List.append_assoc]
      exact List.getElem?_append_left (show 4 < grepPre.length by decide +kernel)
    rw [trimmedRange, e 4 (by decide), e 14 (by decide), d]
    decide +kernel
  simp only [grepEds, List.map_cons, List.map_nil]
  refine congr (congrArg List.cons ?_) (congrArg (fun a => [a]) ?_)
  · show Fix.mk _ (trimmedRange (grepSrc k).pieces 0 (0 + (toks (cl (cs! "grep") (grepArgs k))).length)).1 (trimmedRange (grepSrc k).pieces 0 (0 + (toks (cl (cs! "grep") (grepArgs k))).length)).2 _ = _
    rw [h1]
  · show Fix.mk _ (trimmedRange (grepSrc k).pieces 4 14).1 (trimmedRange (grepSrc k).pieces 4 14).2 _ = _
    rw [h2]

theorem blen_more (k : Nat) : blen (List.replicate k (cs! ", fixed = TRUE")).flatten = 14 * k ∧ ((List.replicate k (cs! ", fixed = TRUE")).flatten).length = 14 * k := by
  induction k with
  | zero => exact ⟨rfl, rfl⟩
  | succ k ih =>
    simp only [List.replicate_succ, List.flatten_cons, blen_append, List.length_append, ih]
    refine ⟨?_, ?_⟩
    · show 14 + 14 * k = _; omega
    · show 14 + 14 * k = _; omega

theorem endless_eq (k : Nat) : endless k = piecesText (grepSrc k).pieces ++ ['\n'] := by
  rw [piecesText_grep, endless]; simp

theorem endless_len (k : Nat) : blen (piecesText (grepSrc k).pieces) = 45 + 14 * k ∧ (piecesText (grepSrc k).pieces).length = 45 + 14 * k := by
  rw [piecesText_grep]
  simp only [blen_append, List.length_append, blen_more]
  refine ⟨?_, ?_⟩
  · show 44 + 14 * k + 1 = _; omega
  · show 44 + 14 * k + 1 = _; omega

theorem grep_apply (k : Nat) : applyFixes ((grepEds k).map fun e => textFix (grepSrc k) e.1 e.2) (endless k) = some (true, endless (k + 1)) := by
  have h0 := endless_len k
  have h1 := endless_len (k + 1)
  rw [grep_ranges, endless_eq, endless_eq]
  generalize piecesText (grepSrc k).pieces = a at *
  generalize piecesText (grepSrc (k + 1)).pieces = b at *
  have hr : replaceRange (a ++ ['\n']) 0 (blen a) b = some (b ++ ['\n']) := by
    rw [replaceRange, if_neg (by omega), show splitAtByte 0 (a ++ ['\n']) = some ([], a ++ ['\n']) from splitAtByte_append [] _]
    simp only [Nat.sub_zero, splitAtByte_append]
    rfl
  have e1 : fixStep (a ++ ['\n']).length ⟨a ++ ['\n'], 0, false, (a ++ ['\n']).length⟩ ⟨b, 0, blen a, false⟩ = some ⟨b ++ ['\n'], blen a, false, (b ++ ['\n']).length⟩ := by
    rw [fixStep]
    simp only [Int.sub_self, Int.add_zero]
    rw [if_neg (by simp), if_neg (by omega), show (((0 : Nat) : Int)).toNat = 0 from rfl, Int.toNat_natCast, hr]
  have e2 : fixStep (a ++ ['\n']).length ⟨b ++ ['\n'], blen a, false, (b ++ ['\n']).length⟩ ⟨cs! "grep(\"b\", x, fixed = T, fixed = TRUE)", 10, 33, false⟩ =
      some ⟨b ++ ['\n'], blen a, true, (b ++ ['\n']).length⟩ := by
    rw [fixStep]
    simp only [List.length_append, List.length_cons, List.length_nil]
    rw [if_pos (by omega)]
  simp only [applyFixes, fixLoop, e1, e2]

/-- Fixing this file never ends: with every pass there is one `fixed = TRUE` more (finding F41). -/
theorem C22_false_endless {L : Lints} {pkg : PackageAnalysis} {cfg : Config} {path : Str} {io : Io} (hx : hasRmdExtension path = false) (hr : ∀ n, io.readOk n = true) (hw : ∀ n, io.writeFails n = none)
    (hL : ∀ k, ∃ ds, getChecks L pkg cfg path (endless k) = .ok ds ∧ ds.map (·.fix) = (grepEds k).map fun e => textFix (grepSrc k) e.1 e.2) (fuel : Nat) :
    lintFix L pkg cfg path io fuel (some (endless 0)) = (some (endless fuel), none) := by
  have gen : ∀ fuel n k, lintFixLoop L pkg cfg path io fuel n true (some (endless k)) = (some (endless (k + fuel)), none) := by
    intro fuel
    induction fuel with
    | zero => intro n k; rfl
    | succ fuel ih =>
      intro n k
      obtain ⟨ds, h1, h2⟩ := hL k
      have hrd : io.read n (some (endless k)) = some (endless k) := by simp [Io.read, hr]
      simp only [lintFixLoop, hrd, h1, h2, grep_apply, hw, Bool.not_true, Bool.false_eq_true, if_false]
      rw [ih, show k + 1 + fuel = k + (fuel + 1) by omega]
  rw [lintFix, hx]
  simp only [Bool.false_eq_true, if_false]
  rw [gen, Nat.zero_add]

/-- The fixes of these texts, and nothing for other texts. -/
def grepFixes (code : Str) : List Fix :=
  match (List.range code.length).find? (fun k => endless k = code) with
  | some k => (grepEds k).map fun e => textFix (grepSrc k) e.1 e.2
  | none => []

theorem grepFixes_endless (k : Nat) : grepFixes (endless k) = (grepEds k).map fun e => textFix (grepSrc k) e.1 e.2 := by
  have hl : ∀ k, (endless k).length = 46 + 14 * k := by intro k; rw [endless_eq, List.length_append, (endless_len k).2]; simp; omega
  have : (List.range (endless k).length).find? (fun j => endless j = endless k) = some k := by
    rw [List.find?_range_eq_some]
    refine ⟨by simp, by rw [List.mem_range, hl]; omega, fun j hj => ?_⟩
    have := hl j
    have h' := hl k
    simp only [Bool.not_eq_true', decide_eq_false_iff_not]
    intro e
    rw [e] at this
    omega
  rw [grepFixes, this]

/-- The hypotheses of `C22_false_endless` can be met, and the fixes are those that the rule proposes for the code. -/
theorem C22_false_terminates : (∀ fuel, lintFix (plainLints grepFixes) exPkg exFixConfig (cs! "a.R") Io.good fuel (some (endless 0)) = (some (endless fuel), none)) ∧
    endless 0 = cs! "grep(\"a\", grep(\"b\", x, fixed = T), fixed = T)\n" ∧
    ∀ k, ReadsAs (endless k) (grepSrc k) (grepProg k) ∧ FixTexts keepingRules (grepProg k) (grepEds k) ∧ proposed onlyFixed .assign (grepProg k) = (grepEds k).map (·.1) := by
  refine ⟨fun fuel => C22_false_endless (by decide +kernel) (fun _ => rfl) (fun _ => rfl) (fun k => ?_) fuel, by decide +kernel, fun k => ⟨endless_reads k, grep_texts k, grep_proposed _ k⟩⟩
  rw [← grepFixes_endless]
  refine plain_checks grepFixes (endless k) ?_
  rw [grepFixes_endless, grep_ranges]
  intro f hf
  simp only [List.mem_cons, List.not_mem_nil, or_false] at hf
  rcases hf with rfl | rfl <;> rfl

end Jarl

import Verif.Props.Place
import Verif.Props.RLawsExamples
import Verif.Props.LspActions
/-!
# C77: suppression comments are only comments
-/
namespace Jarl
open Spec

theorem reads_text {text : Str} {src : Src} {p : Node} (h : ReadsAs text src p) : src.text = text := (lexN_inv _ _ _ _ h.1).1

theorem reads_good {text : Str} {src : Src} {p : Node} (h : ReadsAs text src p) : ∀ q ∈ src.pieces, gapOk false q.gap = true ∧ Good q.k := (lexN_inv _ _ _ _ h.1).2.1

theorem reads_tail {text : Str} {src : Src} {p : Node} (h : ReadsAs text src p) : TailOk src.tail := (lexN_inv _ _ _ _ h.1).2.2

theorem reads_length {text : Str} {src : Src} {p : Node} (h : ReadsAs text src p) : (mayBreak p).length = src.pieces.length := by
  rw [mayBreak_length, h.2.2.2]; simp [Src.toks, piecesToks]

theorem reads_first {text : Str} {src : Src} {p : Node} (h : ReadsAs text src p) : src.pieces = [] ∨ (mayBreak p)[0]? = some true := by
  have hl := reads_length h
  obtain ⟨_, hs, hw, _⟩ := h
  cases p with
  | snil => exact .inl (List.eq_nil_of_length_eq_zero hl.symm)
  | scons e semis rest =>
    refine .inr ?_
    have := mayBreak_head e .top hw.2.1 (by have := hw.1; cases e <;> first | rfl | cases this)
    rw [← List.head?_eq_getElem?, mayBreak, List.head?_append, List.head?_append, this]
    rfl
  | _ => cases hs

theorem lineStartPoint_exact {source : Str} {pos : Nat} {pt : InsertPoint} (h : lineStartPoint source pos = some pt) :
    ∃ x y, source = x ++ y ∧ (x = [] ∨ ∃ q, x = q ++ ['\n']) ∧ pt.offset = blen x ∧ pt.indent = y.takeWhile (fun c => isWs c && c ≠ '\n') := by
  unfold lineStartPoint findLineStartAndIndent at h
  cases hs : splitAtByte pos source with
  | none => rw [hs] at h; cases h
  | some ab =>
    obtain ⟨before, after⟩ := ab
    rw [hs] at h
    obtain ⟨h1, h2⟩ := splitAtByte_iff.mp hs
    cases hl : splitLast '\n' before with
    | none =>
      simp only [hl] at h
      cases h
      exact ⟨[], source, rfl, .inl rfl, rfl, rfl⟩
    | some pl =>
      obtain ⟨pre, line⟩ := pl
      simp only [hl] at h
      cases h
      obtain ⟨h3, h4⟩ := splitLast_iff.mp hl
      refine ⟨pre ++ ['\n'], line ++ after, by rw [h1, h3]; simp, .inr ⟨pre, rfl⟩, ?_, rfl⟩
      simp only [blen_append]
      rfl

theorem line_place {text : Str} {src : Src} {p : Node} {s : Nat} {pt : InsertPoint} (hr : ReadsAs text src p) (h : lineStartPoint text s = some pt) (hn : ¬ InsideToken src pt.offset) :
    GapPlace (mayBreak p) src pt.offset ∧ ∀ c ∈ pt.indent, isBlank c = true := by
  obtain ⟨x, y, h1, h2, h3, h4⟩ := lineStartPoint_exact h
  rw [h3] at hn ⊢
  rw [h4]
  exact place_of_line (reads_good hr) (reads_tail hr) (by rw [reads_text hr, h1]) h2 hn (reads_first hr)

theorem inline_place {text : Str} {src : Src} {p : Node} {s : Nat} {pt : InsertPoint} (hr : ReadsAs text src p) (hs : TokenPlace (mayBreak p) src s) (h : inlinePoint text s = some pt) :
    GapPlace (mayBreak p) src pt.offset ∧ (∀ c ∈ pt.indent, isBlank c = true) ∧ ¬ InsideToken src pt.offset := by
  obtain ⟨pre, line, rest, _, _, _, _, h1, _, h2⟩ := inlinePoint_spec h
  rw [h1]
  refine ⟨token_gapPlace (fun q hq => (reads_good hr q hq).1) hs, ?_, start_outside hs⟩
  rw [h2]
  intro c hc
  rw [(List.mem_replicate.mp hc).2]; decide

/-- What the search finds, for one comment. -/
theorem placed {text : Str} {src : Src} {p : Node} {e : RawEdit} {d : Nat} (hr : ReadsAs text src p) (h : PlacedFor text src p e d) (hn : ¬ InsideToken src e.point.offset) :
    GapPlace (mayBreak p) src e.point.offset ∧ ∀ c ∈ e.point.indent, isBlank c = true := by
  rcases h with h | ⟨z, hz, h⟩
  · exact line_place hr h hn
  · rcases walkUp_places (P := TokenPlace (mayBreak p) src) h (by simp) (by simp) (chain_places hr z.fs z.e hz) with ⟨s, _, _, h1⟩ | ⟨s, hs, h1⟩ | ⟨_, _, _, h1⟩
    · exact line_place hr h1 hn
    · exact ⟨(inline_place hr hs h1).1, (inline_place hr hs h1).2.1⟩
    · exact line_place hr h1 hn

theorem insert_comments {text : Str} {src : Src} {p : Node} {reason out : Str} (l : List MergedEdit) (hr : ReadsAs text src p) (hreason : '\n' ∉ reason)
    (hp : l.Pairwise (fun a b => b.point.offset < a.point.offset))
    (hl : ∀ m ∈ l, GapPlace (mayBreak p) src m.point.offset ∧ (∀ c ∈ m.point.indent, isBlank c = true) ∧ m.rules ≠ [] ∧ ∀ r ∈ m.rules, '\n' ∉ r)
    (h : applyInsertions reason l text = some out) : ∃ src' q, ReadsAs out src' q ∧ SameProgram p q := by
  rw [← reads_text hr] at h
  obtain ⟨src', rfl, h1, h2⟩ := insert_all hreason l src out (reads_length hr) (fun q hq => (reads_good hr q hq).1) (reads_tail hr) hp hl h
  obtain ⟨q, h3, h4⟩ := reads_grown hr h1 h2
  exact ⟨_, q, h3, h4.symm⟩

/-- **C77** (one file). R reads the file with the comments as the same program: the tokens and the structure are the same, only line breaks and comments differ. What is missing: a comment whose
place is inside a string (`C77_false_string`); the place is inside a string or quoted name only as `C77_outside` and `C77_short_tokens` say. -/
theorem C77_same_program_partial {text reason out : Str} {src : Src} {p : Node} {edits : List RawEdit} (hr : ReadsAs text src p) (hreason : '\n' ∉ reason)
    (he : ∀ e ∈ edits, '\n' ∉ e.rule ∧ (∃ d, PlacedFor text src p e d) ∧ ¬ InsideToken src e.point.offset) (h : addIgnoreToFile text reason edits = some out) :
    ∃ src' q, ReadsAs out src' q ∧ SameProgram p q := by
  unfold addIgnoreToFile at h
  rw [mergeEdits_desc] at h
  have hs : (edits.mergeSort (fun a b => a.point.offset ≤ b.point.offset)).Pairwise (fun a b => a.point.offset ≤ b.point.offset) := by
    have := List.pairwise_mergeSort (le := fun (a b : RawEdit) => decide (a.point.offset ≤ b.point.offset))
      (by intro a b c; simp; omega) (by intro a b; simp; omega) edits
    exact this.imp (by intro a b h; simpa using h)
  obtain ⟨h1, h2, _⟩ := merge_inv _ hs
  simp only [List.mem_mergeSort] at h2
  unfold mergeEdits at h
  rw [List.reverse_reverse] at h
  generalize List.foldl mergeStep [] (edits.mergeSort _) = acc at h h1 h2
  refine insert_comments acc hr hreason h1 ?_ h
  intro m hm
  obtain ⟨⟨e, hem, hep⟩, _, h3⟩ := h2 m hm
  obtain ⟨_, ⟨d, hd⟩, hn⟩ := he e hem
  obtain ⟨p1, p2⟩ := placed hr hd hn
  rw [hep] at p1 p2
  refine ⟨p1, p2, ?_, ?_⟩
  · intro hnil
    have := (h3 e.rule).mpr ⟨e, hem, by rw [hep], rfl⟩
    rw [hnil] at this; cases this
  · intro r hrm
    obtain ⟨e', he', _, rfl⟩ := (h3 r).mp hrm
    exact (he e' he').1

/-- If a comment is put inside a token, then it is at the beginning of the line of the report, and around the place of the report there is no code (but blocks, and statements such as `if` that do
not begin their line). -/
theorem inside_only {text : Str} {src : Src} {p : Node} {pt : InsertPoint} {z : Zip} {d : Nat} (hr : ReadsAs text src p) (hz : z.prog = p)
    (h : computeInsertPoint text (some (placeChain src z.fs z.e)) d = some pt) (hi : InsideToken src pt.offset) :
    (∀ n ∈ placeChain src z.fs z.e, n.meaningful = true → n.controlFlow = true ∧ isOnOwnLine text n.start = some false) ∧ lineStartPoint text d = some pt := by
  rcases walkUp_places (P := TokenPlace (mayBreak p) src) h (by simp) (by simp) (chain_places hr z.fs z.e hz) with ⟨s, hs, ho, h1⟩ | ⟨s, hs, h1⟩ | ⟨_, _, h2, h1⟩
  · rw [← reads_text hr] at ho h1
    exact absurd hi (own_line_outside (fun q hq => (reads_good hr q hq).2) hs ho h1)
  · exact absurd hi (inline_place hr hs h1).2.2
  · exact ⟨h2, h1⟩

theorem code_chain {src : Src} {z y : Zip} (h : Around z y) (hc : isCode y.e = true) : ∃ n ∈ placeChain src z.fs z.e, n.meaningful = true ∧ n.controlFlow = false := by
  induction h with
  | here z =>
    refine ⟨⟨meaningfulNode z.e, controlFlowNode z.e, nodeStart src z.fs z.e⟩, ?_, ?_, ?_⟩
    · cases hf : z.fs <;> simp [placeChain, placeInfo]
    all_goals (generalize z.e = e at hc ⊢; cases e <;> first | rfl | cases hc)
  | up f fs e y _ ih =>
    obtain ⟨n, h1, h2⟩ := ih hc
    exact ⟨n, by simp only [placeChain, List.mem_append]; exact .inr h1, h2⟩

/-- **C77** (where). A comment is never put inside a token if the report is in an operation, a call or a negation (or is one). -/
theorem C77_outside {text : Str} {src : Src} {p : Node} {pt : InsertPoint} {z y : Zip} {d : Nat} (hr : ReadsAs text src p) (hz : z.prog = p) (hy : Around z y) (hc : isCode y.e = true)
    (h : computeInsertPoint text (some (placeChain src z.fs z.e)) d = some pt) : ¬ InsideToken src pt.offset := by
  intro hi
  obtain ⟨h1, _⟩ := inside_only hr hz h hi
  obtain ⟨n, h2, h3, h4⟩ := code_chain (src := src) hy hc
  have := (h1 n h2 h3).1
  rw [h4] at this; cases this

theorem short_outside {src : Src} {x y : Str} (e : src.text = x ++ y) (hx : x = [] ∨ ∃ q, x = q ++ ['\n']) (hs : ShortTokens src) : ¬ InsideToken src (blen x) := by
  rintro ⟨a, p, b, h1, h2, h3⟩
  rcases hx with rfl | ⟨q, rfl⟩
  · simp at h2
  · have e1 : src.text = (piecesText a ++ p.gap ++ p.k.text) ++ (piecesText b ++ src.tail) := by simp [Src.text, h1, piecesText_append, piecesText]
    have e2 : q ++ ['\n'] ++ y = (piecesText a ++ p.gap) ++ (p.k.text ++ (piecesText b ++ src.tail)) := by rw [← e, e1]; simp
    obtain ⟨u, e3, e4⟩ := gap_prefix e2 (by omega)
    have hu : u ≠ [] := by
      rintro rfl
      rw [List.append_nil] at e3
      rw [e3] at h2; omega
    obtain ⟨v, e5, _⟩ := gap_prefix e4 (by
      rw [e3] at h3
      simp only [blen_append] at h3; omega)
    have : u.getLast? = some '\n' := by
      have := congrArg List.getLast? e3
      rw [List.getLast?_concat, List.getLast?_append] at this
      cases hl : u.getLast? with
      | none => rw [List.getLast?_eq_none_iff] at hl; exact absurd hl hu
      | some c' => rw [hl] at this; simpa using this.symm
    refine hs p (by rw [h1]; simp) ?_
    rw [e5]
    exact List.mem_append_left _ (List.mem_of_getLast? this)

/-- **C77** (no long strings). In files whose strings and quoted names have no line breaks in them, all comments are only comments. -/
theorem C77_short_tokens {text reason out : Str} {src : Src} {p : Node} {edits : List RawEdit} (hr : ReadsAs text src p) (hs : ShortTokens src) (hreason : '\n' ∉ reason)
    (he : ∀ e ∈ edits, '\n' ∉ e.rule ∧ ∃ d, PlacedFor text src p e d) (h : addIgnoreToFile text reason edits = some out) : ∃ src' q, ReadsAs out src' q ∧ SameProgram p q := by
  refine C77_same_program_partial hr hreason (fun e hem => ⟨(he e hem).1, (he e hem).2, ?_⟩) h
  have line : ∀ {s : Nat}, lineStartPoint text s = some e.point → ¬ InsideToken src e.point.offset := by
    intro s h1
    obtain ⟨x, y, e1, e2, e3, _⟩ := lineStartPoint_exact h1
    rw [e3]
    exact short_outside (by rw [reads_text hr, e1]) e2 hs
  obtain ⟨_, d, h1 | ⟨z, hz, h1⟩⟩ := he e hem
  · exact line h1
  · intro hi
    exact line (inside_only hr hz h1 hi).2 hi

/-- **C77** (editor). The same for the action of the language server that adds the comment for one report of an R file. -/
theorem C77_editor {text path out : Str} {src : Src} {p : Node} {f : LspFixData} {anc : Ancestors} {enc : Enc} {pt : InsertPoint} {a : LspAction} (hr : ReadsAs text src p)
    (hpath : hasRmdExtension path = false) (hrule : '\n' ∉ f.ruleName)
    (hanc : anc text f.diagStart f.diagEnd = none ∨ ∃ z : Zip, z.prog = p ∧ anc text f.diagStart f.diagEnd = some (placeChain src z.fs z.e))
    (hp : computeInsertPoint text (anc text f.diagStart f.diagEnd) f.diagStart = some pt) (hn : ¬ InsideToken src pt.offset)
    (ha : ignoreRuleAction anc path text f = some (some a))
    (henc : pt.needsLeadingNewline = false ∨ enc = .utf8 ∨ ∀ pre post, text = pre ++ post → blen pre = pt.offset → ∀ c ∈ lineTail pre, c.utf8Size = 1)
    (h : EditApplies enc text a.edit out) : ∃ src' q, ReadsAs out src' q ∧ SameProgram p q := by
  have hi := (C45_r_file anc enc path text f pt a hpath hp ha henc out).mp h
  have hpl : PlacedFor text src p ⟨pt, f.ruleName⟩ f.diagStart := by
    rcases hanc with e | ⟨z, hz, e⟩
    · rw [e] at hp; exact .inl hp
    · rw [e] at hp; exact .inr ⟨z, hz, hp⟩
  obtain ⟨h1, h2⟩ := placed hr hpl hn
  refine insert_comments (reason := cs! "<reason>") [⟨pt, [f.ruleName]⟩] hr (by decide) (by simp) ?_ (by simp only [applyInsertions, hi])
  intro m hm
  rw [List.mem_singleton] at hm
  subst hm
  exact ⟨h1, h2, by simp, by simpa using hrule⟩

/-! ### The search can end inside a string -/

theorem ungapped_kinds (n : Node) : (toks (ungapped n)).map (·.k) = (toks n).map (·.k) := by
  induction n <;> simp_all [ungapped, toks]

theorem same_kinds {p q : Node} (h : SameProgram p q) : (toks p).map (·.k) = (toks q).map (·.k) := by
  rw [← ungapped_kinds p, ← ungapped_kinds q, h]

/-- `"a⏎"; T`: the string has a line break. -/
def longText : Str := cs! "\"a\n\"; T\n"

def longSrc : Src := (lex longText).getD ⟨[], []⟩

/-- The report for `T` -/
def longZ : Zip := ⟨[.sconsE [] .snil, .sconsR (.atom .none .str (cs! "\"a\n\"")) [.none]], .atom .none .id (cs! "T")⟩

def longEdit : RawEdit := ⟨⟨3, [], false⟩, Rule.trueFalseSymbol.name⟩

def longOut : Str := cs! "\"a\n# jarl-ignore true_false_symbol: why\n\"; T\n"

theorem one_edit (text reason : Str) (e : RawEdit) : addIgnoreToFile text reason [e] = applyInsertions reason [⟨e.point, [e.rule]⟩] text := by
  unfold addIgnoreToFile
  rw [mergeEdits_desc]
  simp [mergeEdits, mergeStep]

/-- **C77** is false (finding F12): in this file the comment for the report about `T` is put into the string of the statement before it. R then reads another program, with another string. -/
theorem C77_false_string : ReadsAs longText longSrc longZ.prog ∧ PlacedFor longText longSrc longZ.prog longEdit 6 ∧ InsideToken longSrc longEdit.point.offset ∧
    addIgnoreToFile longText (cs! "why") [longEdit] = some longOut ∧ (∃ src q, ReadsAs longOut src q) ∧ ∀ src q, ReadsAs longOut src q → ¬ SameProgram longZ.prog q := by
  refine ⟨⟨by decide +kernel, parses_of (by decide +kernel)⟩, .inr ⟨longZ, rfl, by decide +kernel⟩, ?_, ?_, ?_, ?_⟩
  · exact ⟨[], ⟨[], .atom .str (cs! "\"a\n\"")⟩, longSrc.pieces.drop 1, by decide +kernel, by decide +kernel, by decide +kernel⟩
  · rw [one_edit]; decide +kernel
  · exact ⟨(lex longOut).getD ⟨[], []⟩, .scons (.atom .none .str (cs! "\"a\n# jarl-ignore true_false_symbol: why\n\"")) [.none] (.scons (.atom .none .id (cs! "T")) [] .snil),
      by decide +kernel, parses_of (by decide +kernel)⟩
  · intro src q h hs
    have h1 : lex longOut = some ((lex longOut).getD ⟨[], []⟩) := by decide +kernel
    have h2 := h.1
    rw [h1] at h2
    cases h2
    have := same_kinds hs
    rw [h.2.2.2] at this
    revert this
    decide +kernel

/-! ### A file with two comments

A test, not a proof: the hypotheses of the theorems can be met. -/

def ignText : Str := cs! "if (a) any(is.na(b))\ny = 1\n"

def ignSrc : Src := (lex ignText).getD ⟨[], []⟩

/-- `y = 1`, on the second line -/
def ignAssign : Node := .bin (.atom (.line false false) .id (cs! "y")) .none .eq (.atom .none .double (cs! "1"))

def ignZ1 : Zip := ⟨[.ifT .none .none (nm (cs! "a")) .none, .sconsE [] (.scons ignAssign [] .snil)], cl (cs! "any") (cl (cs! "is.na") (nm (cs! "b")))⟩

def ignZ2 : Zip := ⟨[.sconsE [] .snil, .sconsR (.ifE .none .none (nm (cs! "a")) .none (cl (cs! "any") (cl (cs! "is.na") (nm (cs! "b"))))) []], ignAssign⟩

def ignE1 : RawEdit := ⟨⟨7, cs! "       ", true⟩, Rule.anyIsNa.name⟩
def ignE2 : RawEdit := ⟨⟨21, [], false⟩, Rule.assignment.name⟩

def ignOut : Str := cs! "if (a) \n       # jarl-ignore any_is_na: why\n       any(is.na(b))\n# jarl-ignore assignment: why\ny = 1\n"

theorem C77_ex : ReadsAs ignText ignSrc ignZ1.prog ∧ ShortTokens ignSrc ∧ (∀ e ∈ [ignE1, ignE2], '\n' ∉ e.rule ∧ ∃ d, PlacedFor ignText ignSrc ignZ1.prog e d) ∧
    addIgnoreToFile ignText (cs! "why") [ignE1, ignE2] = some ignOut ∧ Around ⟨.callA (nm (cs! "any")) .none .par .none :: ignZ1.fs, cl (cs! "is.na") (nm (cs! "b"))⟩ ignZ1 ∧
    isCode ignZ1.e = true ∧ ∃ src' q, ReadsAs ignOut src' q ∧ SameProgram ignZ1.prog q := by
  have h1 : ReadsAs ignText ignSrc ignZ1.prog := ⟨by decide +kernel, parses_of (by decide +kernel)⟩
  have h2 : ShortTokens ignSrc := by unfold ShortTokens; decide +kernel
  have h3 : ∀ e ∈ [ignE1, ignE2], '\n' ∉ e.rule ∧ ∃ d, PlacedFor ignText ignSrc ignZ1.prog e d := by
    intro e he
    simp only [List.mem_cons, List.not_mem_nil, or_false] at he
    rcases he with rfl | rfl
    · exact ⟨by decide +kernel, 7, .inr ⟨ignZ1, rfl, by decide +kernel⟩⟩
    · exact ⟨by decide +kernel, 21, .inr ⟨ignZ2, rfl, by decide +kernel⟩⟩
  have h4 : addIgnoreToFile ignText (cs! "why") [ignE1, ignE2] = some ignOut := by
    unfold addIgnoreToFile
    rw [mergeEdits_desc, mergeEdits, List.mergeSort_of_pairwise (by decide +kernel)]
    decide +kernel
  exact ⟨h1, h2, h3, h4, .up _ _ _ _ (.here _), rfl, C77_short_tokens h1 h2 (by decide) h3 h4⟩

end Jarl

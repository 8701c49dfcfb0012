import Verif.Lemmas.RText
/-!
# Lemmas: which tokens stand next to each other in R code
-/
namespace Jarl
open Spec

/-- Written without a blank between them, these two characters are read as one token: parts of words, and of longer operators. -/
def gluedChars (a b : Char) : Bool :=
  (isWordChar a && isWordChar b) ||
  [('<', '-'), ('<', '<'), ('<', '='), ('>', '='), ('=', '='), ('!', '='), ('-', '>'), ('>', '>'), ('|', '|'), ('|', '>'), ('&', '&'), (':', ':'), (':', '='), ('*', '*'),
   ('[', '[')].contains (a, b)

/-- Written without a blank between them, these tokens grow together. -/
def Glued (a b : TK) : Prop := ∃ c d, a.text.getLast? = some c ∧ b.text.head? = some d ∧ gluedChars c d = true

/-- A character with which a name, a number or a string begins or ends. -/
def isEdgeChar (c : Char) : Bool := isWordChar c || c = '"' || c = '\'' || c = '`'

/-- The text of a token: names, numbers, strings and constants begin and end with characters of names, or with quotes. -/
def GoodText : TK → Prop
  | .atom k s => ∃ c d, (TK.atom k s).text.head? = some c ∧ (TK.atom k s).text.getLast? = some d ∧ isEdgeChar c = true ∧ isEdgeChar d = true
  | _ => True

/-- The only tokens that stand next to each other and may grow together. -/
def Seam (a b : TK) : Prop := Glued a b → a = .else ∨ a = .in ∨ a = .repeat ∨ a = .op .lt ∨ b = .else ∨ b = .in

/-- May stand next to each other on one line (not exact). -/
def allowed : TK → TK → Bool
  | .atom .., .atom .. | .atom .., .fn _ | .atom .., .if | .atom .., .while | .atom .., .for | .atom .., .repeat => false
  | .op _, .op o => (unLevel o).isSome
  | .if, b | .while, b | .for, b | .fn _, b => b = .open .par
  | .open .brk, .open .brk | .open .brk2, .open .brk | .open .brk, .open .brk2 | .open .brk2, .open .brk2 => false
  | _, _ => true

theorem not_glued_of {a b : TK} (h : ∀ c d, a.text.getLast? = some c → b.text.head? = some d → gluedChars c d = false) : ¬ Glued a b := by
  rintro ⟨c, d, h1, h2, h3⟩
  rw [h c d h1 h2] at h3
  cases h3

theorem edge_cases {c : Char} (h : isEdgeChar c = true) : isWordChar c = true ∨ c = '"' ∨ c = '\'' ∨ c = '`' := by
  simp only [isEdgeChar, Bool.or_eq_true, decide_eq_true_eq] at h
  rcases h with ((h | h) | h) | h
  · exact .inl h
  · exact .inr (.inl h)
  · exact .inr (.inr (.inl h))
  · exact .inr (.inr (.inr h))

/-- Characters of operators and brackets. -/
def isSymChar (c : Char) : Bool := ['=', '-', '<', '>', '~', '|', '&', '!', '+', '*', '/', '%', ':', '^', '(', '[', ')', ']', '{', '}', ',', ';', '\\', '@', '$'].contains c

theorem sym_not_word {c : Char} (h : isSymChar c = true) : isWordChar c = false := by
  simp only [isSymChar, List.contains_eq_mem, List.mem_cons, List.not_mem_nil, or_false, decide_eq_true_eq] at h
  rcases h with h | h | h | h | h | h | h | h | h | h | h | h | h | h | h | h | h | h | h | h | h | h | h | h | h <;> subst h <;> decide

theorem edge_not_sym {c : Char} (h : isEdgeChar c = true) : isSymChar c = false := by
  rcases edge_cases h with h | h | h | h
  · cases hs : isSymChar c with
    | false => rfl
    | true => rw [sym_not_word hs] at h; cases h
  all_goals subst h; decide

theorem glued_cases {c d : Char} (h : gluedChars c d = true) : (isWordChar c = true ∧ isWordChar d = true) ∨ (isSymChar c = true ∧ isSymChar d = true) := by
  simp only [gluedChars, Bool.or_eq_true, Bool.and_eq_true, List.contains_eq_mem, List.mem_cons, List.not_mem_nil, or_false, decide_eq_true_eq, Prod.mk.injEq] at h
  rcases h with h | h
  · exact .inl h
  · right
    rcases h with h | h | h | h | h | h | h | h | h | h | h | h | h | h | h <;> obtain ⟨rfl, rfl⟩ := h <;> decide

theorem special_last (s : Str) : (Op.special s).text.getLast? = some '%' := by
  rw [Op.text, List.getLast?_append]; rfl

theorem op_text_last (o : Op) : ∃ c, o.text.getLast? = some c ∧ isSymChar c = true := by
  cases o <;> try exact ⟨_, rfl, by decide⟩
  exact ⟨'%', special_last _, by decide⟩

theorem op_text_head (o : Op) : ∃ c, o.text.head? = some c ∧ isSymChar c = true := by
  cases o <;> exact ⟨_, rfl, by decide⟩

/-- The last character is a symbol. -/
def symEnd : TK → Bool
  | .atom .. | .fn false | .if | .else | .while | .for | .in | .repeat => false
  | _ => true

theorem symEnd_last {k : TK} (h : symEnd k = true) {c : Char} (hc : k.text.getLast? = some c) : isSymChar c = true := by
  match k with
  | .op o =>
    obtain ⟨c', h1, h2⟩ := op_text_last o
    rw [TK.text, h1] at hc
    cases hc
    exact h2
  | .open .par | .open .brk | .open .brk2 | .close .par | .close .brk | .close .brk2 | .lbrace | .rbrace | .comma | .semi | .fn true | .ext true | .ext false =>
    simp [TK.text] at hc; subst hc; decide

theorem symEnd_head {k : TK} (h : symEnd k = true) {c : Char} (hc : k.text.head? = some c) : isSymChar c = true := by
  match k with
  | .op o =>
    obtain ⟨c', h1, h2⟩ := op_text_head o
    rw [TK.text, h1] at hc
    cases hc
    exact h2
  | .open .par | .open .brk | .open .brk2 | .close .par | .close .brk | .close .brk2 | .lbrace | .rbrace | .comma | .semi | .fn true | .ext true | .ext false =>
    simp [TK.text] at hc; subst hc; decide

theorem word_last {k : TK} (h : symEnd k = false) (hg : GoodText k) {c : Char} (hc : k.text.getLast? = some c) : isSymChar c = false := by
  match k with
  | .atom a s =>
    obtain ⟨_, d, _, h2, _, h4⟩ := hg
    rw [h2] at hc
    cases hc
    exact edge_not_sym h4
  | .fn false | .if | .else | .while | .for | .in | .repeat => simp [TK.text] at hc; subst hc; decide

theorem word_head {k : TK} (h : symEnd k = false) (hg : GoodText k) {c : Char} (hc : k.text.head? = some c) : isSymChar c = false := by
  match k with
  | .atom a s =>
    obtain ⟨c', d, h1, _, h3, _⟩ := hg
    rw [h1] at hc
    cases hc
    exact edge_not_sym h3
  | .fn false | .if | .else | .while | .for | .in | .repeat => simp [TK.text] at hc; subst hc; decide

/-- Tokens that grow together are both words or both symbols. -/
theorem glued_kinds {a b : TK} (ha : GoodText a) (hb : GoodText b) (h : Glued a b) : symEnd a = symEnd b := by
  obtain ⟨c, d, h1, h2, h3⟩ := h
  cases ea : symEnd a <;> cases eb : symEnd b <;> try rfl
  · have x := word_last ea ha h1; have y := symEnd_head eb h2
    rcases glued_cases h3 with ⟨_, q⟩ | ⟨q, _⟩
    · rw [sym_not_word y] at q; cases q
    · rw [x] at q; cases q
  · have x := symEnd_last ea h1; have y := word_head eb hb h2
    rcases glued_cases h3 with ⟨q, _⟩ | ⟨_, q⟩
    · rw [sym_not_word x] at q; cases q
    · rw [y] at q; cases q

theorem un_head {o : Op} (h : (unLevel o).isSome = true) : o = .minus ∨ o = .plus ∨ o = .bang ∨ o = .tilde := by
  cases o <;> simp_all [unLevel]

theorem sym_pair {c d : Char} (h : gluedChars c d = true) (hc : isSymChar c = true) :
    (c, d) ∈ [('<', '-'), ('<', '<'), ('<', '='), ('>', '='), ('=', '='), ('!', '='), ('-', '>'), ('>', '>'), ('|', '|'), ('|', '>'), ('&', '&'), (':', ':'), (':', '='), ('*', '*'), ('[', '[')] := by
  simp only [gluedChars, sym_not_word hc, Bool.false_and, Bool.false_or, List.contains_eq_mem, decide_eq_true_eq] at h
  exact h

theorem lt_last {o : Op} (h : o.text.getLast? = some '<') : o = .lt := by
  cases o <;> first | rfl | (exfalso; revert h; first | (rw [special_last]; simp; done) | simp [Op.text])

theorem brk_last {o : Op} (h : o.text.getLast? = some '[') : False := by
  cases o <;> revert h <;> first | (rw [special_last]; simp; done) | simp [Op.text]

theorem brk_head {o : Op} (h : o.text.head? = some '[') : False := by
  cases o <;> revert h <;> simp [Op.text]

theorem seam_words {a b : TK} (ha : symEnd a = false) (hb : symEnd b = false) (h : allowed a b = true) :
    a = .else ∨ a = .in ∨ a = .repeat ∨ a = .op .lt ∨ b = .else ∨ b = .in := by
  cases a <;> first
    | (exfalso; revert ha; simp [symEnd]; done)
    | (simp; done)
    | (cases b <;> first
        | (exfalso; revert hb; simp [symEnd]; done)
        | (simp; done)
        | (exfalso; revert h; simp [allowed]; done)
        | skip)

/-- The second character of a pair that grows together, for tokens that are not operators. -/
theorem seam_of_allowed {a b : TK} (ha : GoodText a) (hb : GoodText b) (h : allowed a b = true) : Seam a b := by
  intro hg
  have hk := glued_kinds ha hb hg
  obtain ⟨c, d, h1, h2, h3⟩ := hg
  cases ea : symEnd a with
  | false =>
    rw [ea] at hk
    exact seam_words ea hk.symm h
  | true =>
    rw [ea] at hk
    have hs := sym_pair h3 (symEnd_last ea h1)
    match a with
    | .op o =>
      match b with
      | .op o' =>
        have h' : (unLevel o').isSome = true := h
        have : d = '-' ∨ d = '+' ∨ d = '!' ∨ d = '~' := by
          rcases un_head h' with rfl | rfl | rfl | rfl <;> simp [TK.text, Op.text] at h2 <;> simp [← h2]
        have hc : c = '<' := by
          simp only [List.mem_cons, Prod.mk.injEq, List.not_mem_nil, or_false] at hs
          rcases this with rfl | rfl | rfl | rfl <;> simp at hs
          exact hs
        subst hc
        rw [lt_last h1]
        exact .inr (.inr (.inr (.inl rfl)))
      | .open .brk | .open .brk2 =>
        exfalso
        simp [TK.text] at h2
        subst h2
        simp at hs
        subst hs
        exact brk_last h1
      | .open .par | .close .par | .close .brk | .close .brk2 | .lbrace | .rbrace | .comma | .semi | .fn true | .ext true | .ext false =>
        exfalso; simp [TK.text] at h2; subst h2; simp at hs
    | .open .brk | .open .brk2 =>
      exfalso
      simp [TK.text] at h1
      subst h1
      simp at hs
      subst hs
      match b with
      | .op o' => exact brk_head h2
      | .open .brk | .open .brk2 => simp [allowed] at h
      | .open .par | .close .par | .close .brk | .close .brk2 | .lbrace | .rbrace | .comma | .semi | .fn true | .ext true | .ext false => simp [TK.text] at h2
    | .open .par | .close .par | .close .brk | .close .brk2 | .lbrace | .rbrace | .comma | .semi | .fn true | .ext true | .ext false =>
      exfalso; simp [TK.text] at h1; subst h1; simp at hs

/-! ### The grammar -/

/-- Tokens with which an expression begins. -/
def startK : TK → Bool
  | .atom .. | .open .par | .lbrace | .fn _ | .if | .while | .for | .repeat => true
  | .op o => (unLevel o).isSome
  | _ => false

/-- Tokens with which an expression ends. -/
def endK : TK → Bool
  | .atom .. | .close _ | .rbrace => true
  | _ => false

/-- Tokens that stand next to each other, on one line, are allowed to. -/
def Steps : TK → List Tok → Prop
  | _, [] => True
  | a, t :: ts => (t.gap.nl = false → allowed a t.k = true) ∧ Steps t.k ts

def StepsE (n : Node) : Prop := ∀ a K, ((headGap (toks n)).nl = false → ∀ k, startK k = true → allowed a k = true) → (∀ e, endK e = true → Steps e K) → Steps a (toks n ++ K)

def StepsA (n : Node) : Prop := ∀ a K, Steps a K → (∀ k, startK k = true → allowed a k = true) → allowed a .comma = true → (∀ e, endK e = true ∨ e = .comma ∨ e = .op .eq → Steps e K) →
  Steps a (toks n ++ K)

def StepsS (n : Node) : Prop := ∀ a K, Steps a K → ((headGap (toks n)).nl = false → ∀ k, startK k = true → allowed a k = true) →
  (∀ e, endK e = true ∨ e = .semi → Steps e K) → Steps a (toks n ++ K)

theorem StepsE.toA {n : Node} (h : StepsE n) : StepsA n := fun a K _ h2 _ h4 => h a K (fun _ => h2) (fun e he => h4 e (.inl he))

theorem allowed_start {a k : TK} (ha : match a with | .atom .. | .fn _ | .if | .while | .for => False | _ => True) (hk : startK k = true) : allowed a k = true := by
  cases a <;> simp only at ha <;> cases k <;> simp_all [startK, allowed]
  all_goals (rename_i b b'; cases b <;> cases b' <;> simp_all [startK, allowed])

theorem allowed_end {e k : TK} (he : endK e = true) (hk : match k with | .atom .. | .fn _ | .if | .while | .for | .repeat => False | _ => True) : allowed e k = true := by
  cases e <;> simp only [endK] at he <;> cases k <;> simp_all [allowed]

theorem steps_expr : ∀ (n : Node) (md : Mode), WF md n → (isExpr n = true → StepsE n) ∧ (isArgs n = true → StepsA n) ∧ (isStmts n = true → StepsS n) := by
  have mkE : ∀ {n : Node}, isExpr n = true → StepsE n → (isExpr n = true → StepsE n) ∧ (isArgs n = true → StepsA n) ∧ (isStmts n = true → StepsS n) := by
    intro n hn h
    refine ⟨fun _ => h, fun _ => h.toA, fun hs => ?_⟩
    cases n <;> simp_all [isExpr, isStmts]
  intro n
  induction n with
  | atom g k s =>
    intro md _
    refine mkE rfl fun a K h1 h2 => ?_
    exact ⟨fun hg => h1 hg _ rfl, h2 _ rfl⟩
  | paren g e g2 ih =>
    intro md hw
    refine mkE rfl fun a K h1 h2 => ?_
    simp only [toks, List.cons_append, List.append_assoc, List.nil_append]
    refine ⟨fun hg => h1 hg _ rfl, (ih .free hw.2).1 hw.1 _ _ (fun _ k hk => allowed_start trivial hk) fun e he => ⟨fun _ => allowed_end he trivial, h2 _ rfl⟩⟩
  | braces g ss g2 ih =>
    intro md hw
    refine mkE rfl fun a K h1 h2 => ?_
    simp only [toks, List.cons_append, List.append_assoc, List.nil_append]
    refine ⟨fun hg => h1 hg _ rfl, (ih .brace hw.2).2.2 hw.1 _ _ ⟨fun _ => rfl, h2 _ rfl⟩ (fun _ k hk => allowed_start trivial hk) fun e he => ⟨fun _ => ?_, h2 _ rfl⟩⟩
    rcases he with he | rfl
    · exact allowed_end he trivial
    · rfl
  | un g o e ih =>
    intro md hw
    refine mkE rfl fun a K h1 h2 => ?_
    simp only [toks, List.cons_append]
    obtain ⟨k, hk, _⟩ := hw.2.2
    refine ⟨fun hg => h1 hg _ (by simp [startK, hk]), (ih md hw.2.1).1 hw.1 _ _ (fun _ k hk => allowed_start trivial hk) h2⟩
  | bin l g o r ihl ihr =>
    intro md hw
    obtain ⟨hl, hr, wl, wr, _, _, _, _⟩ := hw
    refine mkE rfl fun a K h1 h2 => ?_
    simp only [toks, List.cons_append, List.append_assoc]
    refine (ihl md wl).1 hl _ _ (fun hg => h1 ?_) fun e he => ⟨fun _ => allowed_end he trivial, (ihr md wr).1 hr _ _ (fun _ k hk => allowed_start trivial hk) h2⟩
    rw [toks, headGap_append (expr_toks hl wl)]; exact hg
  | ext l g sl g2 k s ih =>
    intro md hw
    obtain ⟨hl, wl, _⟩ := hw
    refine mkE rfl fun a K h1 h2 => ?_
    simp only [toks, List.cons_append, List.append_assoc, List.nil_append]
    refine (ih md wl).1 hl _ _ (fun hg => h1 ?_) fun e he => ⟨fun _ => allowed_end he trivial, fun _ => rfl, h2 _ rfl⟩
    rw [toks, headGap_append (expr_toks hl wl)]; exact hg
  | call f g b args g2 ihf iha =>
    intro md hw
    obtain ⟨hl, wl, _, _, hA, wA, _⟩ := hw
    refine mkE rfl fun a K h1 h2 => ?_
    simp only [toks, List.cons_append, List.append_assoc, List.nil_append]
    refine (ihf md wl).1 hl _ _ (fun hg => h1 ?_) fun e he => ⟨fun _ => allowed_end he trivial, (iha .free wA).2.1 hA _ _ ⟨fun _ => ?_, h2 _ rfl⟩
      (fun k hk => allowed_start trivial hk) ?_ fun e he => ⟨fun _ => ?_, h2 _ rfl⟩⟩
    · rw [toks, List.append_assoc, headGap_append (expr_toks hl wl)]; exact hg
    · cases b <;> rfl
    · cases b <;> rfl
    · rcases he with he | rfl | rfl
      · exact allowed_end he trivial
      · rfl
      · rfl
  | func g la g2 params g3 body ihp ihb =>
    intro md hw
    obtain ⟨hA, wA, _, hb, wb, _⟩ := hw
    refine mkE rfl fun a K h1 h2 => ?_
    simp only [toks, List.cons_append, List.append_assoc]
    have hbody : Steps (.close .par) (toks body ++ K) := (ihb md wb).1 hb _ _ (fun _ k hk => allowed_start trivial hk) h2
    refine ⟨fun hg => h1 hg _ rfl, fun _ => rfl, (ihp .free wA).2.1 hA _ _ ⟨fun _ => rfl, hbody⟩ (fun k hk => allowed_start trivial hk) rfl fun e he => ⟨fun _ => ?_, hbody⟩⟩
    rcases he with he | rfl | rfl
    · exact allowed_end he trivial
    · rfl
    · rfl
  | ifE g g2 c g3 t ihc iht =>
    intro md hw
    obtain ⟨hc, wc, _, ht, wt, _⟩ := hw
    refine mkE rfl fun a K h1 h2 => ?_
    simp only [toks, List.cons_append, List.append_assoc]
    exact ⟨fun hg => h1 hg _ rfl, fun _ => rfl, (ihc .free wc).1 hc _ _ (fun _ k hk => allowed_start trivial hk) fun e he => ⟨fun _ => allowed_end he trivial,
      (iht md wt).1 ht _ _ (fun _ k hk => allowed_start trivial hk) h2⟩⟩
  | ifElse g g2 c g3 t g4 e ihc iht ihe =>
    intro md hw
    obtain ⟨hc, wc, _, ht, wt, _, _, _, he, we, _⟩ := hw
    refine mkE rfl fun a K h1 h2 => ?_
    simp only [toks, List.cons_append, List.append_assoc]
    exact ⟨fun hg => h1 hg _ rfl, fun _ => rfl, (ihc .free wc).1 hc _ _ (fun _ k hk => allowed_start trivial hk) fun e he' => ⟨fun _ => allowed_end he' trivial,
      (iht md wt).1 ht _ _ (fun _ k hk => allowed_start trivial hk) fun e' he' => ⟨fun _ => allowed_end he' trivial, (ihe md we).1 he _ _ (fun _ k hk => allowed_start trivial hk) h2⟩⟩⟩
  | whileE g g2 c g3 b ihc ihb =>
    intro md hw
    obtain ⟨hc, wc, _, ht, wt, _⟩ := hw
    refine mkE rfl fun a K h1 h2 => ?_
    simp only [toks, List.cons_append, List.append_assoc]
    exact ⟨fun hg => h1 hg _ rfl, fun _ => rfl, (ihc .free wc).1 hc _ _ (fun _ k hk => allowed_start trivial hk) fun e he => ⟨fun _ => allowed_end he trivial,
      (ihb md wt).1 ht _ _ (fun _ k hk => allowed_start trivial hk) h2⟩⟩
  | forE g g2 gv v gi seq g3 b ihs ihb =>
    intro md hw
    obtain ⟨hc, wc, _, ht, wt, _⟩ := hw
    refine mkE rfl fun a K h1 h2 => ?_
    simp only [toks, List.cons_append, List.append_assoc]
    exact ⟨fun hg => h1 hg _ rfl, fun _ => rfl, fun _ => rfl, fun _ => rfl, (ihs .free wc).1 hc _ _ (fun _ k hk => allowed_start trivial hk) fun e he => ⟨fun _ => allowed_end he trivial,
      (ihb md wt).1 ht _ _ (fun _ k hk => allowed_start trivial hk) h2⟩⟩
  | repE g b ih =>
    intro md hw
    refine mkE rfl fun a K h1 h2 => ?_
    simp only [toks, List.cons_append]
    exact ⟨fun hg => h1 hg _ rfl, (ih md hw.2.1).1 hw.1 _ _ (fun _ k hk => allowed_start trivial hk) h2⟩
  | hole =>
    intro md _
    exact ⟨fun h => (by cases h), fun _ a K h _ _ _ => h, fun h => (by cases h)⟩
  | named g k s g2 e ih =>
    intro md hw
    refine ⟨fun h => (by cases h), fun _ a K _ h2 _ h4 => ?_, fun h => (by cases h)⟩
    simp only [toks, List.cons_append]
    refine ⟨fun _ => h2 _ rfl, fun _ => rfl, ?_⟩
    rcases hw.2 with rfl | ⟨he, we, _⟩
    · exact h4 _ (.inr (.inr rfl))
    · exact (ih .free we).1 he _ _ (fun _ k hk => allowed_start trivial hk) (fun e he => h4 e (.inl he))
  | comma a g rest iha ihr =>
    intro md hw
    obtain ⟨ha, wa, _, hr, wr, _⟩ := hw
    refine ⟨fun h => (by cases h), fun _ p K _ h2 h3 h4 => ?_, fun h => (by cases h)⟩
    simp only [toks, List.cons_append, List.append_assoc]
    have hrest : Steps .comma (toks rest ++ K) := (ihr .free wr).2.1 hr _ _ (h4 _ (.inr (.inl rfl))) (fun k hk => allowed_start trivial hk) rfl h4
    have ha' : isArgs a = true := by cases a <;> simp_all [isArg, isArgs, isExpr]
    refine (iha .free wa).2.1 ha' _ _ ⟨fun _ => h3, hrest⟩ h2 h3 fun e he => ⟨fun _ => ?_, hrest⟩
    rcases he with he | rfl | rfl
    · exact allowed_end he trivial
    · rfl
    · rfl
  | snil =>
    intro md _
    exact ⟨fun h => (by cases h), fun h => (by cases h), fun _ a K h _ _ => h⟩
  | scons e semis rest ihe ihr =>
    intro md hw
    obtain ⟨he, we, hr, wr, hnl⟩ := hw
    refine ⟨fun h => (by cases h), fun h => (by cases h), fun _ a K _ h2 h3 => ?_⟩
    simp only [toks, List.append_assoc]
    refine (ihe md we).1 he _ _ (fun hg => h2 ?_) fun e' he' => ?_
    · rw [toks, List.append_assoc, headGap_append (expr_toks he we)]; exact hg
    · cases semis with
      | nil =>
        simp only [List.map_nil, List.nil_append]
        by_cases hs : rest = .snil
        · subst hs; exact h3 _ (.inl he')
        · exact (ihr md wr).2.2 hr _ _ (h3 _ (.inl he')) (fun hg => by rw [hnl hs rfl] at hg; cases hg) h3
      | cons g0 gs =>
        have key : ∀ gs : List Gap, Steps .semi (gs.map (fun g => (⟨g, .semi⟩ : Tok)) ++ (toks rest ++ K)) := by
          intro gs
          induction gs with
          | nil => exact (ihr md wr).2.2 hr _ _ (h3 _ (.inr rfl)) (fun _ k hk => allowed_start trivial hk) h3
          | cons g gs ih => exact ⟨fun _ => rfl, ih⟩
        exact ⟨fun _ => allowed_end he' trivial, key gs⟩

end Jarl

import Verif.Spec.Package
import Verif.Props.LspActions
/-!
# Scanning for function definitions
-/
namespace Jarl
open Spec

theorem wordChar_iff {alnum : Char → Bool} {c : Char} : wordChar alnum c = true ↔ NameChar alnum c := by
  simp [wordChar, dotUnder, NameChar]

theorem span_append {p : Char → Bool} {a b : Str} (ha : ∀ c ∈ a, p c = true) (hb : ∀ c ∈ b.head?, p c = false) :
    (a ++ b).takeWhile p = a ∧ (a ++ b).dropWhile p = b := by
  have hb1 : b.takeWhile p = [] ∧ b.dropWhile p = b := by
    cases b with
    | nil => simp
    | cons c cs => have := hb c (by simp); simp [this]
  rw [List.takeWhile_append_of_pos ha, List.dropWhile_append_of_pos ha, hb1.1, hb1.2]
  simp

theorem nameChar_not_ws {alnum : Char → Bool} (h : Alnum alnum) {c : Char} (hc : NameChar alnum c) : isWs c = false := by
  cases hw : isWs c with
  | false => rfl
  | true =>
    rcases hc with hc | rfl | rfl
    · rw [h.ws c hw] at hc; cases hc
    · revert hw; decide
    · revert hw; decide

theorem ascii_not_name {alnum : Char → Bool} (h : Alnum alnum) {c : Char} (hv : c.val < 128)
    (hc : c.isAlphanum = false) (h1 : c ≠ '.') (h2 : c ≠ '_') : ¬ NameChar alnum c := by
  rintro (hn | rfl | rfl)
  · rw [h.ascii c hv, hc] at hn; cases hn
  · exact h1 rfl
  · exact h2 rfl

theorem isFunctionRhs_iff {alnum : Char → Bool} {rhs : Str} : isFunctionRhs alnum rhs = true ↔ FunctionStart alnum rhs := by
  unfold isFunctionRhs
  constructor
  · intro h
    rw [Bool.or_eq_true] at h
    rcases h with h | h
    · cases hs : stripPrefix (cs! "function") rhs with
      | none => rw [hs] at h; cases h
      | some r =>
        rw [hs] at h
        rw [stripPrefix_iff] at hs
        subst hs
        refine .keyword r ?_
        cases r with
        | nil => simp
        | cons c cs =>
          intro d hd
          simp at hd
          subst hd
          rw [← wordChar_iff]
          simpa using h
    · rw [startsWith_iff] at h
      obtain ⟨r, rfl⟩ := h
      exact .lambda r
  · intro h
    cases h with
    | keyword rest h =>
      have : stripPrefix (cs! "function") (cs! "function" ++ rest) = some rest := stripPrefix_iff.mpr rfl
      rw [this, Bool.or_eq_true]
      left
      cases rest with
      | nil => rfl
      | cons c cs =>
        have := h c (by simp)
        rw [← wordChar_iff] at this
        simpa using this
    | lambda rest =>
      rw [Bool.or_eq_true]
      right
      rw [startsWith_iff]
      exact ⟨rest, rfl⟩

theorem functionStart_head {alnum : Char → Bool} {rhs : Str} (h : FunctionStart alnum rhs) :
    ∃ c cs, rhs = c :: cs ∧ isWs c = false ∧ c ≠ '=' := by
  cases h with
  | keyword rest _ => exact ⟨'f', _, rfl, by decide, by decide⟩
  | lambda rest => exact ⟨'\\', _, rfl, by decide, by decide⟩

theorem afterAssign_iff {alnum : Char → Bool} {s : Str} :
    (∃ rhs, afterAssign s = some rhs ∧ FunctionStart alnum rhs) ↔
    ∃ op w2 rhs, s = op ++ w2 ++ rhs ∧ (op = ['<', '-'] ∨ op = ['=']) ∧ (∀ c ∈ w2, isWs c = true) ∧ FunctionStart alnum rhs := by
  constructor
  · rintro ⟨rhs, h, hf⟩
    unfold afterAssign at h
    split at h
    · rename_i r hr
      rw [stripPrefix_iff] at hr
      subst hr
      obtain ⟨w, hw, hws⟩ := trimStart_spec r
      cases h
      refine ⟨['<', '-'], w, _, ?_, .inl rfl, hws, hf⟩
      rw [List.append_assoc, ← hw]
    · split at h
      · rename_i hc
        simp only [Bool.and_eq_true] at hc
        obtain ⟨r, rfl⟩ := startsWith_iff.mp hc.1
        obtain ⟨w, hw, hws⟩ := trimStart_spec r
        cases h
        refine ⟨['='], w, _, ?_, .inr rfl, hws, hf⟩
        show '=' :: r = ['='] ++ w ++ trimStart r
        rw [List.append_assoc, ← hw]; rfl
      · cases h
  · rintro ⟨op, w2, rhs, rfl, hop, hw, hf⟩
    obtain ⟨c, cs, hrc, hcw, hce⟩ := functionStart_head hf
    have ht : trimStart (w2 ++ rhs) = rhs := by
      rw [trimStart_ws_append hw, hrc, trimStart_of_head hcw]
    refine ⟨rhs, ?_, hf⟩
    rcases hop with rfl | rfl
    · unfold afterAssign
      have : stripPrefix ['<', '-'] (['<', '-'] ++ w2 ++ rhs) = some (w2 ++ rhs) :=
        stripPrefix_iff.mpr (by rw [List.append_assoc])
      rw [this]
      simp only [ht]
    · unfold afterAssign
      have h1 : stripPrefix ['<', '-'] (['='] ++ w2 ++ rhs) = none := rfl
      have h2 : startsWith ['='] (['='] ++ w2 ++ rhs) = true := rfl
      have h3 : startsWith ['=', '='] (['='] ++ w2 ++ rhs) = false := by
        cases hs : startsWith ['=', '='] (['='] ++ w2 ++ rhs) with
        | false => rfl
        | true =>
          exfalso
          obtain ⟨r, hr⟩ := startsWith_iff.mp hs
          have hr : w2 ++ rhs = '=' :: r := by simpa using hr
          cases w2 with
          | nil => simp at hr; rw [hrc] at hr; cases hr; exact hce rfl
          | cons a as =>
            have : a = '=' := by simp at hr; exact hr.1
            subst this
            have := hw '=' (by simp)
            revert this; decide
      rw [h1]
      simp only [h2, h3, Bool.not_false, Bool.and_self, if_true]
      show some (trimStart (w2 ++ rhs)) = some rhs
      rw [ht]

/-- Recognising a definition. -/
theorem definedName_iff {alnum : Char → Bool} (h : Alnum alnum) {line name : Str} :
    definedName alnum line = some name ↔ DefLine alnum line name := by
  constructor
  · intro hd
    unfold definedName at hd
    split at hd
    · cases hd
    · rename_i c cs
      split at hd
      · cases hd
      · dsimp only at hd
        split at hd
        · cases hd
        · rename_i hne
          split at hd
          · cases hd
          · rename_i rhs hrhs
            split at hd
            · rename_i hfun
              cases hd
              obtain ⟨op, w2, r2, hs, hop, hw2, hf⟩ := afterAssign_iff.mp ⟨rhs, hrhs, isFunctionRhs_iff.mp hfun⟩
              obtain ⟨w1, hw1, hws1⟩ := trimStart_spec (List.dropWhile (wordChar alnum) (c :: cs))
              have e : (c :: cs) = (c :: cs).takeWhile (wordChar alnum) ++ w1 ++ op ++ w2 ++ r2 := by
                conv => lhs; rw [← List.takeWhile_append_dropWhile (p := wordChar alnum) (l := c :: cs)]
                rw [hw1, hs]
                simp only [List.append_assoc]
              have := DefLine.mk (alnum := alnum) _ w1 op w2 r2 hne
                (fun d hd => wordChar_iff.mp (List.all_eq_true.mp (List.all_takeWhile) d hd)) hws1 hop hw2 hf
              rw [← e] at this
              exact this
            · cases hd
  · intro hd
    cases hd with
    | mk name w1 op w2 rhs hne hn h1 hop h2 hr =>
      have hopc : ∃ o os, op = o :: os ∧ isWs o = false ∧ ¬ NameChar alnum o := by
        rcases hop with rfl | rfl
        · exact ⟨'<', _, rfl, by decide, ascii_not_name h (by decide) (by decide) (by decide) (by decide)⟩
        · exact ⟨'=', _, rfl, by decide, ascii_not_name h (by decide) (by decide) (by decide) (by decide)⟩
      obtain ⟨o, os, hoo, how, hon⟩ := hopc
      have hspan := span_append (p := wordChar alnum) (a := name) (b := w1 ++ (op ++ w2 ++ rhs))
        (fun c hc => wordChar_iff.mpr (hn c hc)) (by
          intro c hc
          cases hwc : wordChar alnum c with
          | false => rfl
          | true =>
            exfalso
            rw [wordChar_iff] at hwc
            cases w1 with
            | nil =>
              rw [hoo] at hc
              simp at hc
              subst hc
              exact hon hwc
            | cons a as =>
              simp at hc
              subst hc
              have := nameChar_not_ws h hwc
              rw [h1 a (by simp)] at this
              cases this)
      have hline : name ++ w1 ++ op ++ w2 ++ rhs = name ++ (w1 ++ (op ++ w2 ++ rhs)) := by simp only [List.append_assoc]
      rw [hline]
      obtain ⟨c, cs, hncs⟩ : ∃ c cs, name = c :: cs := by
        cases name with
        | nil => exact absurd rfl hne
        | cons c cs => exact ⟨c, cs, rfl⟩
      have hcn := hn c (by rw [hncs]; simp)
      have hcw := nameChar_not_ws h hcn
      have hch : c ≠ '#' := by
        rintro rfl
        exact ascii_not_name h (by decide) (by decide) (by decide) (by decide) hcn
      have ht : trimStart (w1 ++ (op ++ w2 ++ rhs)) = op ++ w2 ++ rhs := by
        rw [trimStart_ws_append h1, hoo]
        exact trimStart_of_head how
      obtain ⟨r2, ha, hf⟩ := afterAssign_iff.mpr ⟨op, w2, rhs, rfl, hop, h2, hr⟩
      unfold definedName
      rw [hspan.1, hspan.2, ht, ha]
      rw [hncs]
      simp only [List.cons_append, hcw, Bool.false_or, beq_iff_eq, hch, if_false, isFunctionRhs_iff.mpr hf, if_true]
      simp

/-! ## Lines -/

theorem functionStart_cr {alnum : Char → Bool} (h : Alnum alnum) {a : Str} {e : Char} (he : e = '\r' ∨ e = '\n') :
    FunctionStart alnum (a ++ [e]) ↔ FunctionStart alnum a := by
  have hen : ¬ NameChar alnum e := by
    rcases he with rfl | rfl <;> exact ascii_not_name h (by decide) (by decide) (by decide) (by decide)
  constructor
  · intro hf
    generalize hx : a ++ [e] = x at hf
    cases hf with
    | keyword rest hr =>
      rcases List.eq_nil_or_concat rest with rfl | ⟨r', z, rfl⟩
      · exfalso
        have := congrArg List.getLast? hx
        simp at this
        rcases he with rfl | rfl <;> cases this
      · have hx : a ++ [e] = (cs! "function" ++ r') ++ [z] := by rw [hx]; simp
        obtain ⟨rfl, _⟩ := List.append_inj' hx rfl
        refine .keyword r' (fun c hc => hr c ?_)
        cases r' with
        | nil => cases hc
        | cons d ds => simpa using hc
    | lambda rest =>
      rcases List.eq_nil_or_concat rest with rfl | ⟨r', z, rfl⟩
      · exfalso
        have := congrArg List.getLast? hx
        simp at this
        rcases he with rfl | rfl <;> cases this
      · have hx : a ++ [e] = ('\\' :: r') ++ [z] := by rw [hx]; simp
        obtain ⟨rfl, _⟩ := List.append_inj' hx rfl
        exact .lambda r'
  · intro hf
    cases hf with
    | keyword rest hr =>
      rw [List.append_assoc]
      refine .keyword _ (fun c hc => ?_)
      cases rest with
      | nil => simp at hc; subst hc; exact hen
      | cons d ds => exact hr c (by simpa using hc)
    | lambda rest => exact .lambda _

theorem defLine_cr {alnum : Char → Bool} (h : Alnum alnum) {a name : Str} {e : Char} (he : e = '\r' ∨ e = '\n') :
    DefLine alnum (a ++ [e]) name ↔ DefLine alnum a name := by
  constructor
  · intro hd
    generalize hx : a ++ [e] = x at hd
    cases hd with
    | mk name w1 op w2 rhs hne hn h1 hop h2 hr =>
      rcases List.eq_nil_or_concat rhs with rfl | ⟨r', z, rfl⟩
      · obtain ⟨c, cs, hc, _⟩ := functionStart_head hr; cases hc
      · have hx : a ++ [e] = (name ++ w1 ++ op ++ w2 ++ r') ++ [z] := by rw [hx]; simp
        obtain ⟨rfl, hz⟩ := List.append_inj' hx rfl
        cases hz
        have hr : FunctionStart alnum (r' ++ [e]) := by simpa using hr
        exact .mk name w1 op w2 r' hne hn h1 hop h2 ((functionStart_cr h he).mp hr)
  · intro hd
    cases hd with
    | mk name w1 op w2 rhs hne hn h1 hop h2 hr =>
      rw [List.append_assoc]
      exact .mk name w1 op w2 (rhs ++ [e]) hne hn h1 hop h2 ((functionStart_cr h he).mpr hr)

theorem defLine_append {alnum : Char → Bool} (h : Alnum alnum) {a r name : Str} (he : ∀ e ∈ r, e = '\r' ∨ e = '\n') :
    DefLine alnum (a ++ r) name ↔ DefLine alnum a name := by
  induction r generalizing a with
  | nil => simp
  | cons c cs ih =>
    have e : a ++ c :: cs = (a ++ [c]) ++ cs := by simp
    rw [e, ih (fun x hx => he x (by simp [hx])), defLine_cr h (he c (by simp))]

theorem dropWhile_rest {p : Char → Bool} (s : Str) : ∃ r, s = r ++ s.dropWhile p ∧ ∀ c ∈ r, p c = true :=
  ⟨s.takeWhile p, List.takeWhile_append_dropWhile.symm, fun c hc => List.all_eq_true.mp List.all_takeWhile c hc⟩

theorem stripEols_spec (l : Str) : ∃ r, l = stripEols l ++ r ∧ ∀ e ∈ r, e = '\r' ∨ e = '\n' := by
  obtain ⟨r1, h1, hr1⟩ := dropWhile_rest (p := (· == '\n')) l.reverse
  obtain ⟨r2, h2, hr2⟩ := dropWhile_rest (p := (· == '\r')) (l.reverse.dropWhile (· == '\n'))
  refine ⟨(r1 ++ r2).reverse, ?_, ?_⟩
  · unfold stripEols
    rw [← List.reverse_append, List.append_assoc, ← h2, ← h1, List.reverse_reverse]
  · intro e he
    rw [List.mem_reverse, List.mem_append] at he
    rcases he with he | he
    · right; simpa using hr1 e he
    · left; simpa using hr2 e he

theorem stripEol_eols (l : Str) : ∃ r, l = stripEol l ++ r ∧ ∀ e ∈ r, e = '\r' ∨ e = '\n' := by
  have hl : l = l.reverse.reverse := by simp
  unfold stripEol
  split
  · rename_i r hr
    refine ⟨['\r', '\n'], ?_, by simp⟩
    rw [hl, hr]; simp
  · rename_i r hr
    refine ⟨['\n'], ?_, by simp⟩
    rw [hl, hr]; simp
  · exact ⟨[], by simp, by simp⟩

/-- The definition recognised in a line with its terminator. -/
theorem definedName_piece {alnum : Char → Bool} (h : Alnum alnum) {l name : Str} :
    definedName alnum (stripEols l) = some name ↔ DefLine alnum l name := by
  obtain ⟨r, hr, he⟩ := stripEols_spec l
  rw [definedName_iff h]
  conv => rhs; rw [hr]
  exact (defLine_append h he).symm

theorem first_nl {a b c d : Str} (ha : '\n' ∉ a) (hc : '\n' ∉ c) (h : a ++ '\n' :: b = c ++ '\n' :: d) : a = c ∧ b = d := by
  induction a generalizing c with
  | nil =>
    cases c with
    | nil => simp at h; exact ⟨rfl, h⟩
    | cons x xs => simp at h; exact absurd (h.1 ▸ List.mem_cons_self) hc
  | cons y ys ih =>
    cases c with
    | nil => simp at h; exact absurd (h.1 ▸ List.mem_cons_self) ha
    | cons x xs =>
      simp at h
      obtain ⟨e1, e2⟩ := ih (fun hm => ha (by simp [hm])) (fun hm => hc (by simp [hm])) h.2
      exact ⟨by rw [h.1, e1], e2⟩

theorem nl_cases (s : Str) : '\n' ∉ s ∨ ∃ a b, s = a ++ '\n' :: b ∧ '\n' ∉ a := by
  induction s with
  | nil => left; simp
  | cons c cs ih =>
    by_cases hc : c = '\n'
    · subst hc; right; exact ⟨[], cs, rfl, by simp⟩
    · rcases ih with ih | ⟨a, b, rfl, ha⟩
      · left; simp [ih]; exact fun h => hc h.symm
      · right; exact ⟨c :: a, b, rfl, by simp [ha]; exact fun h => hc h.symm⟩

theorem isLine_single {l pre m post : Str} (hl : '\n' ∉ l) : IsLine l pre m post ↔ pre = [] ∧ m = l ∧ post = [] := by
  constructor
  · intro h
    have hpre : pre = [] := by
      rcases h.before with hb | hb
      · exact hb
      · exact absurd (by rw [h.eq]; simp [List.mem_of_getLast? hb]) hl
    have hpost : post = [] := by
      rcases h.after with hb | hb
      · exact hb
      · exact absurd (by rw [h.eq]; simp [List.mem_of_head? hb]) hl
    have := h.eq
    rw [hpre, hpost] at this
    exact ⟨hpre, by simpa using this.symm, hpost⟩
  · rintro ⟨rfl, rfl, rfl⟩
    exact ⟨by simp, hl, .inl rfl, .inl rfl⟩

theorem isLine_cons {l rest pre m post : Str} (hl : '\n' ∉ l) :
    IsLine (l ++ '\n' :: rest) pre m post ↔
      (pre = [] ∧ m = l ∧ post = '\n' :: rest) ∨ ∃ pre', pre = l ++ '\n' :: pre' ∧ IsLine rest pre' m post := by
  constructor
  · intro h
    rcases h.before with hb | hb
    · left
      have e := h.eq
      rw [hb] at e
      rcases h.after with ha | ha
      · rw [ha] at e
        simp at e
        exact absurd (e ▸ (by simp)) h.one
      · cases post with
        | nil => cases ha
        | cons c cs =>
          simp at ha
          subst ha
          obtain ⟨rfl, rfl⟩ := first_nl hl h.one (by simpa using e)
          exact ⟨hb, rfl, rfl⟩
    · right
      obtain ⟨q, rfl⟩ : ∃ q, pre = q ++ ['\n'] := List.getLast?_eq_some_iff.mp hb
      rcases nl_cases q with hq | ⟨a, b, rfl, ha⟩
      · obtain ⟨rfl, hr⟩ := first_nl (b := rest) (d := m ++ post) hl hq (by rw [h.eq]; simp)
        exact ⟨[], rfl, ⟨by rw [hr]; simp, h.one, .inl rfl, h.after⟩⟩
      · obtain ⟨rfl, hr⟩ := first_nl (b := rest) (d := b ++ '\n' :: (m ++ post)) hl ha (by rw [h.eq]; simp)
        exact ⟨b ++ ['\n'], by simp, ⟨by rw [hr]; simp, h.one, .inr (by simp), h.after⟩⟩
  · rintro (⟨rfl, rfl, rfl⟩ | ⟨pre', rfl, h⟩)
    · exact ⟨by simp, hl, .inl rfl, .inr rfl⟩
    · refine ⟨by rw [h.eq]; simp, h.one, .inr ?_, h.after⟩
      rcases h.before with hb | hb
      · subst hb; simp
      · cases pre' with
        | nil => cases hb
        | cons c cs => simp [List.getLast?_cons_cons] at hb ⊢; simpa using hb

theorem splitInclusive_nl {l rest : Str} (h : '\n' ∉ l) :
    splitInclusive '\n' (l ++ '\n' :: rest) = (l ++ ['\n']) :: splitInclusive '\n' rest := by
  exact splitInclusive_append h rest

theorem splitInclusive_single {l : Str} (h : '\n' ∉ l) : splitInclusive '\n' l = if l = [] then [] else [l] := by
  induction l with
  | nil => rfl
  | cons c cs ih =>
    simp at h
    have := ih h.2
    unfold splitInclusive
    rw [if_neg (fun e => h.1 e.symm), this]
    cases cs with
    | nil => rfl
    | cons d ds => rfl

theorem countNl_none {l : Str} (h : '\n' ∉ l) : countNl l = 0 := by
  unfold countNl
  rw [List.countP_eq_zero]
  intro c hc
  simp
  rintro rfl
  exact h hc

theorem scanLines_mem {alnum : Char → Bool} (h : Alnum alnum) (n : Nat) : ∀ (content : Str) (off no : Nat) (a : Assign),
    content.length ≤ n →
    (a ∈ scanLines alnum off no (splitInclusive '\n' content) ↔
      ∃ pre, Defines alnum content pre a.name ∧ a.range = ⟨off + blen pre, off + blen pre + blen a.name⟩ ∧
        a.line = no + countNl pre) := by
  induction n with
  | zero =>
    intro content off no a hlen
    obtain rfl : content = [] := List.length_eq_zero_iff.mp (by omega)
    constructor
    · intro ha; cases ha
    · rintro ⟨pre, ⟨l, post, hl, hd⟩, _⟩
      rw [isLine_single (by simp)] at hl
      obtain ⟨_, rfl, _⟩ := hl
      generalize hx : ([] : Str) = x at hd
      cases hd with
      | mk name w1 op w2 rhs hne => exfalso; simp at hx; exact hne hx.1
  | succ n ih =>
    intro content off no a hlen
    rcases nl_cases content with hc | ⟨l, rest, rfl, hl⟩
    · rw [splitInclusive_single hc]
      have key : (∃ pre, Defines alnum content pre a.name ∧ a.range = ⟨off + blen pre, off + blen pre + blen a.name⟩ ∧
          a.line = no + countNl pre) ↔ DefLine alnum content a.name ∧ a.range = ⟨off, off + blen a.name⟩ ∧ a.line = no := by
        constructor
        · rintro ⟨pre, ⟨l, post, hl, hd⟩, hr, hn⟩
          rw [isLine_single hc] at hl
          obtain ⟨rfl, rfl, rfl⟩ := hl
          exact ⟨hd, hr, hn⟩
        · rintro ⟨hd, hr, hn⟩
          exact ⟨[], ⟨content, [], (isLine_single hc).mpr ⟨rfl, rfl, rfl⟩, hd⟩, hr, hn⟩
      rw [key]
      split
      · rename_i hnil
        subst hnil
        constructor
        · intro ha; cases ha
        · rintro ⟨hd, _⟩
          generalize hx : ([] : Str) = x at hd
          generalize a.name = nm at hd
          cases hd with
          | mk name w1 op w2 rhs hne => exfalso; simp at hx; exact hne hx.1
      · unfold scanLines
        constructor
        · intro ha
          split at ha
          · rename_i name hname
            simp [scanLines] at ha
            subst ha
            exact ⟨(definedName_piece h).mp hname, rfl, rfl⟩
          · simp [scanLines] at ha
        · rintro ⟨hd, hr, hn⟩
          rw [(definedName_piece h).mpr hd]
          cases a
          simp at hr hn
          simp [hr, hn]
    · rw [splitInclusive_nl hl]
      have hpiece : ∀ name, DefLine alnum (l ++ ['\n']) name ↔ DefLine alnum l name := fun name => defLine_cr h (.inr rfl)
      have hih := ih rest (off + blen (l ++ ['\n'])) (no + 1) a (by simp at hlen; omega)
      have hb : blen (l ++ ['\n']) = blen l + 1 := by simp; rfl
      have key : (∃ pre, Defines alnum (l ++ '\n' :: rest) pre a.name ∧
            a.range = ⟨off + blen pre, off + blen pre + blen a.name⟩ ∧ a.line = no + countNl pre) ↔
          (DefLine alnum l a.name ∧ a.range = ⟨off, off + blen a.name⟩ ∧ a.line = no) ∨
          (∃ pre, Defines alnum rest pre a.name ∧ a.range = ⟨off + blen (l ++ ['\n']) + blen pre, off + blen (l ++ ['\n']) + blen pre + blen a.name⟩ ∧
            a.line = no + 1 + countNl pre) := by
        have hcn : ∀ pre', countNl (l ++ '\n' :: pre') = 1 + countNl pre' := by
          intro pre'
          have := countNl_none hl
          unfold countNl at this ⊢
          simp [List.countP_append, this]; omega
        have hbl : ∀ pre', blen (l ++ '\n' :: pre') = blen l + 1 + blen pre' := by
          intro pre'
          simp
          show blen l + (1 + blen pre') = _
          omega
        constructor
        · rintro ⟨pre, ⟨m, post, hm, hd⟩, hr, hn⟩
          rw [isLine_cons hl] at hm
          rcases hm with ⟨rfl, rfl, rfl⟩ | ⟨pre', rfl, hm⟩
          · exact .inl ⟨hd, hr, hn⟩
          · refine .inr ⟨pre', ⟨m, post, hm, hd⟩, ?_, ?_⟩
            · rw [hr, hb, hbl]; simp only [Nat.add_assoc]
            · rw [hn, hcn]; omega
        · rintro (⟨hd, hr, hn⟩ | ⟨pre', ⟨m, post, hm, hd⟩, hr, hn⟩)
          · exact ⟨[], ⟨l, _, (isLine_cons hl).mpr (.inl ⟨rfl, rfl, rfl⟩), hd⟩, hr, hn⟩
          · refine ⟨l ++ '\n' :: pre', ⟨m, post, (isLine_cons hl).mpr (.inr ⟨pre', rfl, hm⟩), hd⟩, ?_, ?_⟩
            · rw [hr, hb, hbl]; simp only [Nat.add_assoc]
            · rw [hn, hcn]; omega
      rw [key, ← hih]
      conv => lhs; unfold scanLines
      cases hdn : definedName alnum (stripEols (l ++ ['\n'])) with
      | none =>
        simp only
        constructor
        · exact .inr
        · rintro (⟨hd, _⟩ | hx)
          · rw [(definedName_piece h).mpr ((hpiece _).mpr hd)] at hdn; cases hdn
          · exact hx
      | some name =>
        simp only [List.mem_cons]
        have hd := (hpiece _).mp ((definedName_piece h).mp hdn)
        constructor
        · rintro (rfl | hx)
          · exact .inl ⟨hd, rfl, rfl⟩
          · exact .inr hx
        · rintro (⟨hd2, hr, hn⟩ | hx)
          · left
            have := (definedName_piece h).mpr ((hpiece _).mpr hd2)
            rw [hdn] at this
            cases a
            simp at this hr hn
            simp [this, hr, hn]
          · exact .inr hx

/-- **C48**: the scanned definitions are exactly the definitions of the file, with the range of the name and the line. -/
theorem C48_scan {alnum : Char → Bool} (h : Alnum alnum) (content : Str) (a : Assign) :
    a ∈ scanAssigns alnum content ↔
      ∃ pre, Defines alnum content pre a.name ∧ a.range = ⟨blen pre, blen pre + blen a.name⟩ ∧ a.line = 1 + countNl pre := by
  have := scanLines_mem h content.length content 0 1 a (Nat.le_refl _)
  simpa [scanAssigns] using this

theorem scanLines_ge {alnum : Char → Bool} : ∀ (ls : List Str) (off no : Nat), ∀ a ∈ scanLines alnum off no ls, off ≤ a.range.start := by
  intro ls
  induction ls with
  | nil => intro off no a ha; cases ha
  | cons l ls ih =>
    intro off no a ha
    unfold scanLines at ha
    split at ha
    · rcases List.mem_cons.mp ha with rfl | ha
      · exact Nat.le_refl _
      · have := ih _ _ a ha; omega
    · have := ih _ _ a ha; omega

theorem scanLines_sorted {alnum : Char → Bool} : ∀ (ls : List Str) (off no : Nat), (∀ l ∈ ls, l ≠ []) →
    (scanLines alnum off no ls).Pairwise (fun a b => a.range.start < b.range.start) := by
  intro ls
  induction ls with
  | nil => intro off no _; exact List.Pairwise.nil
  | cons l ls ih =>
    intro off no hne
    have hlen : 0 < blen l := by
      have := length_le_blen l
      have : l.length ≠ 0 := by rw [ne_eq, List.length_eq_zero_iff]; exact hne l (by simp)
      omega
    have := ih (off + blen l) (no + 1) (fun x hx => hne x (by simp [hx]))
    unfold scanLines
    split
    · refine List.Pairwise.cons (fun a ha => ?_) this
      have := scanLines_ge _ _ _ a ha
      show off < _
      omega
    · exact this

theorem splitInclusive_ne {c : Char} {s l : Str} (h : l ∈ splitInclusive c s) : l ≠ [] := by
  induction s generalizing l with
  | nil => cases h
  | cons d ds ih =>
    unfold splitInclusive at h
    split at h
    · rcases List.mem_cons.mp h with rfl | h
      · simp
      · exact ih h
    · split at h
      · simp at h; subst h; simp
      · rename_i p ps hp
        rcases List.mem_cons.mp h with rfl | h
        · simp
        · exact ih (by rw [hp]; simp [h])

/-- **C48**: definitions are listed in the order of the file. -/
theorem C48_scan_sorted (alnum : Char → Bool) (content : Str) :
    (scanAssigns alnum content).Pairwise (fun a b => a.range.start < b.range.start) :=
  scanLines_sorted _ _ _ (fun _ h => splitInclusive_ne h)

/-- **C48**: the range of a definition covers its name in the text. -/
theorem C48_range {alnum : Char → Bool} (h : Alnum alnum) (content : Str) (a : Assign) (ha : a ∈ scanAssigns alnum content) :
    slice a.range.start a.range.stop content = some a.name := by
  obtain ⟨pre, ⟨l, post, hl, hd⟩, hr, _⟩ := (C48_scan h content a).mp ha
  have : ∃ q, l = a.name ++ q := by
    generalize a.name = nm at hd ⊢
    cases hd with
    | mk name w1 op w2 rhs => exact ⟨w1 ++ op ++ w2 ++ rhs, by simp⟩
  obtain ⟨q, hq⟩ := this
  rw [hr]
  exact slice_mid content pre a.name (q ++ post) (by rw [hl.eq, hq]; simp)

end Jarl

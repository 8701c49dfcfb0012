import Verif.Props.OutputJson
import Verif.Props.Cli
/-!
# C58, C59: the concise report and the annotations for GitHub
-/
namespace Jarl
open Spec

/-! ### Reading -/

theorem occurs_mono {p a s b : Str} (h : Occurs p s) : Occurs p (a ++ s ++ b) := by
  obtain ⟨x, y, rfl⟩ := h
  exact ⟨a ++ x, y ++ b, by simp⟩

theorem occurs2_snoc {x y z : Char} {a : Str} (hz : y ≠ z) (h : Occurs [x, y] (a ++ [z])) : Occurs [x, y] a := by
  obtain ⟨u, v, h⟩ := h
  rcases List.eq_nil_or_concat v with rfl | ⟨v', w, rfl⟩
  · have h1 : a ++ [z] = (u ++ [x]) ++ [y] := by rw [h]; simp
    have := (List.append_inj' h1 rfl).2
    cases this
    exact absurd rfl hz
  · have h1 : a ++ [z] = (u ++ [x, y] ++ v') ++ [w] := by rw [h]; simp
    exact ⟨u, v', (List.append_inj' h1 rfl).1⟩

theorem occurs2_mem {x y : Char} {a : Str} (h : Occurs [x, y] a) : x ∈ a ∧ y ∈ a := by
  obtain ⟨u, v, rfl⟩ := h
  simp

theorem cut2_append {x y : Char} : ∀ {a : Str} (b : Str), ¬ Occurs [x, y] (a ++ [x]) → cut2 x y (a ++ x :: y :: b) = some (a, b)
  | [], b, _ => by simp [cut2]
  | [c], b, h => by
    have : ¬ (c = x ∧ x = y) := by rintro ⟨rfl, rfl⟩; exact h ⟨[], [], rfl⟩
    simp only [List.cons_append, List.nil_append, cut2]
    rw [if_neg this]
    simp
  | c :: d :: a, b, h => by
    have hc : ¬ (c = x ∧ d = y) := by rintro ⟨rfl, rfl⟩; exact h ⟨[], a ++ [c], by simp⟩
    have ih := cut2_append (x := x) (y := y) (a := d :: a) b (fun ⟨u, v, e⟩ => h ⟨c :: u, v, by simp at e ⊢; exact e⟩)
    simp only [List.cons_append] at ih ⊢
    rw [cut2, if_neg hc, ih]
    rfl

theorem splitFirst_append {c : Char} {a : Str} (h : c ∉ a) (b : Str) : splitFirst c (a ++ c :: b) = some (a, b) :=
  splitFirst_iff.mpr ⟨rfl, h⟩

theorem not_mem_digits {c : Char} (h : c.isDigit = false) (n : Nat) : c ∉ digits n := by
  intro hc
  rw [digits_digit hc] at h
  cases h

theorem not_mem_name {c : Char} (h : isRuleChar c = false) {d : Diagnostic} (hd : OfRule d) : c ∉ d.name := by
  obtain ⟨r, hr⟩ := hd
  rw [hr]
  intro hc
  rw [r.name_chars.1 c hc] at h
  cases h

theorem text_eq (d : Diagnostic) : d.text = explanation d := by
  unfold Diagnostic.text explanation
  cases d.suggestion <;> simp

/-! ### Lines -/

theorem emitAll_some {f : Diagnostic → Option Str} {g : Diagnostic → Str} : ∀ {ds : List Diagnostic},
    (∀ d ∈ ds, f d = some (g d)) → emitAll f ds = some (ds.flatMap g)
  | [], _ => rfl
  | d :: ds, h => by
    rw [emitAll, h d (by simp), emitAll_some (fun x hx => h x (by simp [hx]))]
    rfl

theorem splitOn_lines {g : Diagnostic → Str} (rest : Str) : ∀ {ds : List Diagnostic}, (∀ d ∈ ds, '\n' ∉ g d) →
    splitOn '\n' (ds.flatMap (fun d => line (g d)) ++ rest) = ds.map g ++ splitOn '\n' rest
  | [], _ => rfl
  | d :: ds, h => by
    have ih := splitOn_lines rest (ds := ds) (fun x hx => h x (by simp [hx]))
    rw [List.flatMap_cons, line, List.append_assoc, List.append_assoc, List.singleton_append,
      splitOn_append (h d (by simp)), ih]
    rfl

/-! ### C58 -/

theorem relativize_same {cwd file : Str} (h : file ≠ cwd) : SameFile cwd (relativize cwd file) file := by
  unfold relativize
  rw [if_neg h]
  cases hs : stripPrefix (cwd ++ ['/']) file with
  | none => exact .inl rfl
  | some r => exact .inr (by simpa using stripPrefix_iff.mp hs)

theorem relativize_suffix (cwd file : Str) : ∃ p, file = p ++ relativize cwd file := by
  unfold relativize
  by_cases h : file = cwd
  · exact ⟨file, by simp [h]⟩
  rw [if_neg h]
  cases hs : stripPrefix (cwd ++ ['/']) file with
  | none => exact ⟨[], rfl⟩
  | some r => exact ⟨_, stripPrefix_iff.mp hs⟩

/-- The line without its end. -/
def conciseText (env : OutEnv) (d : Diagnostic) : Str :=
  relativize env.cwd d.filename ++ cs! " [" ++ digits (d.location.getD (0, 0)).1 ++ cs! ":" ++
    digits ((d.location.getD (0, 0)).2 + 1) ++ cs! "] " ++ d.name ++ cs! " " ++ explanation d

theorem conciseLine_text {env : OutEnv} (hn : env.noColor = true) (hc : env.colors = false) {d : Diagnostic}
    (h : Concise env.cwd d) : conciseLine env d = some (line (conciseText env d)) := by
  obtain ⟨hl, _⟩ := h
  cases e : d.location with
  | none => exact absurd e hl
  | some rc =>
    obtain ⟨row, col⟩ := rc
    simp [conciseLine, conciseText, e, paint, hc, ruleTitle, hn, text_eq]

theorem conciseText_shows {env : OutEnv} {d : Diagnostic} (h : Concise env.cwd d) :
    ShowsLine env.cwd (conciseText env d) d ∧ '\n' ∉ conciseText env d := by
  obtain ⟨hl, hr, ht, hf, ho, hw⟩ := h
  cases e : d.location with
  | none => exact absurd e hl
  | some rc =>
    obtain ⟨row, col⟩ := rc
    obtain ⟨pre, hpre⟩ := relativize_suffix env.cwd d.filename
    have hn : '\n' ∉ relativize env.cwd d.filename := by
      intro hx; apply hf; rw [hpre]; simp [hx]
    have ho' : ¬ Occurs [' ', '['] (relativize env.cwd d.filename ++ [' ']) := by
      intro hx
      apply ho
      have := occurs_mono (a := pre) (b := []) (occurs2_snoc (by decide) hx)
      rw [List.append_nil, ← hpre] at this
      exact this
    constructor
    · refine ⟨relativize env.cwd d.filename, row, col, relativize_same hw, e, ?_⟩
      have e1 : conciseText env d = relativize env.cwd d.filename ++ ' ' :: '[' :: (digits row ++ ':' ::
          (digits (col + 1) ++ ']' :: ' ' :: (d.name ++ ' ' :: explanation d))) := by
        simp [conciseText, e]
      have h2 : ¬ Occurs [']', ' '] (digits (col + 1) ++ [']']) := by
        intro hx
        have := (occurs2_mem (occurs2_snoc (by decide) hx)).1
        exact not_mem_digits (by decide) _ this
      rw [e1]
      unfold readConcise
      rw [cut2_append _ ho']
      simp only [bind, Option.bind]
      rw [splitFirst_append (not_mem_digits (by decide) _)]
      simp only
      rw [cut2_append _ h2]
      simp only
      rw [splitFirst_append (not_mem_name (by decide) hr)]
      simp only [readNat_digits]
      rfl
    · simp only [conciseText, e, Option.getD_some, List.mem_append, not_or]
      refine ⟨⟨⟨⟨⟨⟨⟨⟨hn, by decide⟩, not_mem_digits (by decide) _⟩, by decide⟩, not_mem_digits (by decide) _⟩, by decide⟩,
        not_mem_name (by decide) hr⟩, by decide⟩, ht⟩

/-- **C58.** With `--output-format concise` and without colours, standard output starts with one line per diagnostic of the
report, in order; a line is read as `path [row:column] rule text`, which gives back the file, the row, the column (counted
from 1), the rule and the text of the diagnostic. Behind these lines comes a blank line, if there was a diagnostic. -/
theorem C58_concise {env : OutEnv} {order : List (Str × Nat × Bool) → List (Str × Nat × Bool)} {args : OutArgs}
    {items : List ResolvedItem} {rs : FileResults} {o : CliOut} (h : Reporting args rs) (hf : args.format = .concise)
    (ho : cliReport args.toCheckArgs items rs = .ok o) (hn : env.noColor = true) (hc : env.colors = false)
    (hd : ∀ d ∈ o.diagnostics, Concise env.cwd d) :
    ∃ out err ls rest, checkOutput env order args items rs = some ⟨out, err⟩ ∧ splitOn '\n' out = ls ++ rest ∧
      ls.length = o.diagnostics.length ∧ (∀ x ∈ ls.zip o.diagnostics, ShowsLine env.cwd x.1 x.2) ∧
      (o.diagnostics ≠ [] → rest.head? = some []) := by
  rw [checkOutput_reporting h ho, hf]
  have he : emit env .concise o.diagnostics o.errors =
      some ⟨o.diagnostics.flatMap (fun d => line (conciseText env d)), errLines env o.errors⟩ := by
    show emitConcise _ _ _ = _
    unfold emitConcise
    rw [emitAll_some (fun d hx => conciseLine_text hn hc (hd d hx))]
    rfl
  rw [he]
  refine ⟨_, _, o.diagnostics.map (conciseText env),
    splitOn '\n' (summary env o.diagnostics (!o.errors.isEmpty) ++ (section_ (cs! "Warnings") (warnings args items
      (allDiagnostics rs)) ++ section_ (cs! "Notes") (notes args))), rfl, ?_, by simp, ?_, ?_⟩
  · rw [List.append_assoc, List.append_assoc, splitOn_lines _ (fun d hx => (conciseText_shows (hd d hx)).2)]
  · intro x hx
    rw [List.zip_map_left] at hx
    obtain ⟨⟨a, b⟩, hab, rfl⟩ := List.mem_map.mp hx
    have hm : ∀ (l : List Diagnostic), (a, b) ∈ l.zip l → a = b ∧ a ∈ l := by
      intro l
      induction l with
      | nil => intro h; cases h
      | cons y l ih =>
        intro h
        simp only [List.zip_cons_cons, List.mem_cons, Prod.mk.injEq] at h
        rcases h with ⟨rfl, rfl⟩ | h
        · simp
        · exact ⟨(ih h).1, by simp [(ih h).2]⟩
    obtain ⟨rfl, hm'⟩ := hm _ hab
    exact (conciseText_shows (hd a hm')).1
  · intro hne
    have : 0 < o.diagnostics.length := List.length_pos_iff.mpr hne
    simp only [summary, this, if_true, line, List.nil_append, List.cons_append, List.append_assoc]
    rfl

/-! ### C59 -/

theorem occurs_append {x : Char} {t : Str} : ∀ {a b : Str}, x ∉ a → Occurs (x :: t) (a ++ b) → Occurs (x :: t) b
  | [], b, _, h => h
  | c :: a, b, hx, h => by
    obtain ⟨u, v, h⟩ := h
    cases u with
    | nil =>
      simp only [List.nil_append, List.cons_append, List.cons.injEq] at h
      exact absurd (by simp [h.1]) hx
    | cons d u =>
      simp only [List.cons_append, List.cons.injEq] at h
      exact occurs_append (a := a) (fun hm => hx (by simp [hm])) ⟨u, v, h.2⟩

theorem occurs2_around {x y z : Char} (hx : z ≠ x) (hy : z ≠ y) : ∀ {a b : Str}, Occurs [x, y] (a ++ z :: b) →
    Occurs [x, y] a ∨ Occurs [x, y] b
  | [], b, h => .inr (occurs_append (a := [z]) (by simp [Ne.symm hx]) h)
  | c :: a, b, h => by
    obtain ⟨u, v, h⟩ := h
    cases u with
    | nil =>
      cases a with
      | nil =>
        simp only [List.nil_append, List.cons_append, List.cons.injEq] at h
        exact absurd h.2.1 hy
      | cons d a =>
        simp only [List.nil_append, List.cons_append, List.cons.injEq] at h
        obtain ⟨rfl, rfl, _⟩ := h
        exact .inl ⟨[], a, rfl⟩
    | cons d u =>
      simp only [List.cons_append, List.cons.injEq] at h
      rcases occurs2_around hx hy (a := a) (b := b) ⟨u, v, h.2⟩ with ⟨u', v', h'⟩ | h'
      · exact .inl ⟨c :: u', v', by simp [h']⟩
      · exact .inr h'

theorem decode_no {a b c n : Char} : ∀ {s : Str}, ¬ Occurs [a, b, c] s → decode a b c n s = s
  | [], _ => by simp [decode]
  | [_], _ => by simp [decode]
  | [_, _], _ => by simp [decode]
  | x :: y :: z :: r, h => by
    have : ¬ (x = a ∧ y = b ∧ z = c) := by rintro ⟨rfl, rfl, rfl⟩; exact h ⟨[], r, rfl⟩
    rw [decode, if_neg this, decode_no (s := y :: z :: r)]
    rintro ⟨u, v, e⟩
    exact h ⟨x :: u, v, by simp [e]⟩

theorem occurs_head {x : Char} {t s : Str} (h : Occurs (x :: t) s) : x ∈ s := by
  obtain ⟨a, b, rfl⟩ := h
  simp

theorem unescapeData_no {s : Str} (h : NoEscapes s) : unescapeData s = s := by
  unfold unescapeData
  rw [decode_no h.1, decode_no h.2.1, decode_no h.2.2]

theorem unescapeProperty_no {s : Str} (h : '%' ∉ s) : unescapeProperty s = s := by
  have : ∀ t, ¬ Occurs ('%' :: t) s := fun t ht => h (occurs_head ht)
  unfold unescapeProperty
  rw [decode_no (this _), decode_no (this _), decode_no (this _), decode_no (this _), decode_no (this _)]

/-- The line without its end. -/
def githubText (d : Diagnostic) (row col : Nat) : Str :=
  cs! "::" ++ ((cs! "warning" ++ ' ' :: ((cs! "title=Jarl (" ++ d.name ++ cs! ")") ++ ',' :: ((cs! "file=" ++ d.filename) ++
    ',' :: ((cs! "line=" ++ digits row) ++ ',' :: (cs! "col=" ++ digits col))))) ++ ':' :: ':' ::
    (d.filename ++ (cs! ":" ++ digits row ++ cs! ":" ++ digits col ++ cs! " [" ++ d.name ++ cs! "] " ++ explanation d)))

theorem githubLine_text {d : Diagnostic} {row col : Nat} (h : d.location = some (row, col)) :
    githubLine d = some (line (githubText d row (col + 1))) := by
  simp [githubLine, githubText, h, text_eq, line]

theorem trim_ends {c e : Char} {s : Str} (hc : isWs c = false) (he : isWs e = false) : trim (c :: (s ++ [e])) = c :: (s ++ [e]) := by
  unfold trim
  rw [trimStart_of_head hc]
  exact trimEnd_of_last (s := c :: s) he

theorem digits_snoc (n : Nat) : ∃ s c, digits n = s ++ [c] ∧ c.isDigit = true := by
  rcases List.eq_nil_or_concat (digits n) with h | ⟨s, c, h⟩
  · exact absurd h (digits_ne_nil n)
  · rw [List.concat_eq_append] at h
    exact ⟨s, c, h, digits_digit (n := n) (by rw [h]; simp)⟩

theorem isWs_digit {c : Char} (h : c.isDigit = true) : isWs c = false := by
  simp only [Char.isDigit, Bool.and_eq_true, decide_eq_true_eq, UInt32.le_iff_toNat_le] at h
  have h1 : 48 ≤ c.toNat := h.1
  have h2 : c.toNat ≤ 57 := h.2
  simp only [isWs, Bool.or_eq_false_iff, Bool.and_eq_false_iff, decide_eq_false_iff_not, beq_eq_false_iff_ne]
  omega

theorem readCommand_text {d : Diagnostic} (row col : Nat) (hr : OfRule d) (hf : PlainPath d.filename)
    (he : NoEscapes (explanation d)) :
    readCommand (githubText d row col) = some (annotation d row col (explanation d)) := by
  obtain ⟨_, h2, h3, h4⟩ := hf
  have hdig : ∀ c, c.isDigit = false → ∀ n, c ∉ digits n := fun c h n => not_mem_digits h n
  have hname : ∀ c, isRuleChar c = false → c ∉ d.name := fun c h => not_mem_name h hr
  unfold readCommand githubText
  have e0 : ∀ s : Str, trimStart (cs! "::" ++ s) = cs! "::" ++ s := fun s => trimStart_of_head (by decide)
  rw [e0, stripPrefix_iff.mpr rfl]
  simp only [bind, Option.bind]
  rw [cut2_append]
  rotate_left
  · intro h
    have e1 : (cs! "warning" ++ ' ' :: ((cs! "title=Jarl (" ++ d.name ++ cs! ")") ++ ',' :: ((cs! "file=" ++ d.filename) ++
        ',' :: ((cs! "line=" ++ digits row) ++ ',' :: (cs! "col=" ++ digits col))))) ++ [':'] =
        (cs! "warning title=Jarl (" ++ d.name ++ cs! "),file=") ++ (d.filename ++ ',' ::
          ((cs! "line=" ++ digits row ++ cs! ",col=" ++ digits col) ++ [':'])) := by simp
    rw [e1] at h
    have h' := occurs_append (by
      simp only [List.mem_append, not_or]
      exact ⟨⟨by decide, hname _ (by decide)⟩, by decide⟩) h
    rcases occurs2_around (by decide) (by decide) h' with h' | h'
    · exact h4 h'
    · have h'' := occurs_append (by
        simp only [List.mem_append, not_or]
        exact ⟨⟨⟨by decide, hdig _ (by decide) _⟩, by decide⟩, hdig _ (by decide) _⟩) h'
      obtain ⟨u, v, e⟩ := h''
      have := congrArg List.length e
      simp at this
      omega
  simp only
  rw [splitFirst_append (by decide)]
  simp only [Option.getD_some]
  have htrim : trim ((cs! "title=Jarl (" ++ d.name ++ cs! ")") ++ ',' :: ((cs! "file=" ++ d.filename) ++
      ',' :: ((cs! "line=" ++ digits row) ++ ',' :: (cs! "col=" ++ digits col)))) =
      (cs! "title=Jarl (" ++ d.name ++ cs! ")") ++ ',' :: ((cs! "file=" ++ d.filename) ++
      ',' :: ((cs! "line=" ++ digits row) ++ ',' :: (cs! "col=" ++ digits col))) := by
    obtain ⟨s, c, hs, hc⟩ := digits_snoc col
    rw [hs]
    have := trim_ends (c := 't') (e := c) (s := cs! "itle=Jarl (" ++ d.name ++ cs! ")" ++ ',' :: ((cs! "file=" ++ d.filename) ++
      ',' :: ((cs! "line=" ++ digits row) ++ ',' :: (cs! "col=" ++ s)))) (by decide) (isWs_digit hc)
    simpa using this
  rw [htrim]
  rw [splitOn_append, splitOn_append, splitOn_append, splitOn_no]
  rotate_left
  · simp only [List.mem_append, not_or]; exact ⟨by decide, hdig _ (by decide) _⟩
  · simp only [List.mem_append, not_or]; exact ⟨by decide, hdig _ (by decide) _⟩
  · simp only [List.mem_append, not_or]; exact ⟨by decide, h2⟩
  · simp only [List.mem_append, not_or]; exact ⟨⟨by decide, hname _ (by decide)⟩, by decide⟩
  have f1 : splitFirst '=' (cs! "title=Jarl (" ++ d.name ++ cs! ")") = some (cs! "title", cs! "Jarl (" ++ d.name ++ cs! ")") :=
    splitFirst_iff.mpr ⟨rfl, by decide⟩
  have f2 : splitFirst '=' (cs! "file=" ++ d.filename) = some (cs! "file", d.filename) :=
    splitFirst_iff.mpr ⟨rfl, by decide⟩
  have f3 : splitFirst '=' (cs! "line=" ++ digits row) = some (cs! "line", digits row) :=
    splitFirst_iff.mpr ⟨rfl, by decide⟩
  have f4 : splitFirst '=' (cs! "col=" ++ digits col) = some (cs! "col", digits col) :=
    splitFirst_iff.mpr ⟨rfl, by decide⟩
  have hfil : (List.filter (fun p => decide (p ≠ [])) [cs! "title=Jarl (" ++ d.name ++ cs! ")", cs! "file=" ++ d.filename,
      cs! "line=" ++ digits row, cs! "col=" ++ digits col]) = [cs! "title=Jarl (" ++ d.name ++ cs! ")", cs! "file=" ++ d.filename,
      cs! "line=" ++ digits row, cs! "col=" ++ digits col] := by
    simp
  rw [hfil]
  simp only [List.filterMap_cons, List.filterMap_nil, f1, f2, f3, f4, List.map_cons, List.map_nil]
  rw [unescapeProperty_no (s := cs! "Jarl (" ++ d.name ++ cs! ")"), unescapeProperty_no h3,
    unescapeProperty_no (hdig _ (by decide) row), unescapeProperty_no (hdig _ (by decide) col)]
  rotate_left
  · simp only [List.mem_append, not_or]; exact ⟨⟨by decide, hname _ (by decide)⟩, by decide⟩
  rw [unescapeData_no]
  rotate_left
  · have hp : '%' ∉ d.filename ++ (cs! ":" ++ digits row ++ cs! ":" ++ digits col ++ cs! " [" ++ d.name ++ cs! "] ") := by
      simp only [List.mem_append, not_or]
      exact ⟨h3, ⟨⟨⟨⟨⟨⟨by decide, hdig _ (by decide) _⟩, by decide⟩, hdig _ (by decide) _⟩, by decide⟩, hname _ (by decide)⟩,
        by decide⟩⟩
    have ha : d.filename ++ (cs! ":" ++ digits row ++ cs! ":" ++ digits col ++ cs! " [" ++ d.name ++ cs! "] " ++ explanation d) =
      (d.filename ++ (cs! ":" ++ digits row ++ cs! ":" ++ digits col ++ cs! " [" ++ d.name ++ cs! "] ")) ++ explanation d := by
      simp
    rw [ha]
    exact ⟨fun h => he.1 (occurs_append hp h), fun h => he.2.1 (occurs_append hp h), fun h => he.2.2 (occurs_append hp h)⟩
  simp [annotation, digits]

theorem githubText_line {d : Diagnostic} (row col : Nat) (h : GithubSafe d) (c : Char) (hc : c = '\n' ∨ c = '\r') :
    c ∉ githubText d row col := by
  obtain ⟨_, hr, hf, ht, _⟩ := h
  have hdig : ∀ n, c ∉ digits n := fun n => not_mem_digits (by rcases hc with rfl | rfl <;> decide) n
  have hname : c ∉ d.name := not_mem_name (by rcases hc with rfl | rfl <;> decide) hr
  have hfile : c ∉ d.filename := by
    rcases hc with rfl | rfl
    · exact hf.1.1
    · exact hf.1.2
  have hexp : c ∉ explanation d := by
    rcases hc with rfl | rfl
    · exact ht.1
    · exact ht.2
  simp only [githubText, List.mem_append, List.mem_cons, not_or]
  rcases hc with rfl | rfl <;> simp [hdig, hname, hfile, hexp]

/-- **C59.** With `--output-format github` standard output consists of workflow commands, and nothing else is printed. The
runner reads exactly one `warning` per diagnostic of the report, in order, with the rule in the title, the file, the row,
the column counted from 1 and the text of the diagnostic. -/
theorem C59_github {env : OutEnv} {order : List (Str × Nat × Bool) → List (Str × Nat × Bool)} {args : OutArgs}
    {items : List ResolvedItem} {rs : FileResults} {o : CliOut} (h : Reporting args rs) (hf : args.format = .github)
    (ho : cliReport args.toCheckArgs items rs = .ok o) (hd : ∀ d ∈ o.diagnostics, GithubSafe d) :
    ∃ out, checkOutput env order args items rs = some ⟨out, []⟩ ∧
      commands out = o.diagnostics.filterMap (fun d => d.location.map (fun rc => annotation d rc.1 (rc.2 + 1) (explanation d))) := by
  rw [checkOutput_reporting h ho, hf]
  generalize o.diagnostics = ds at hd
  have he : emit env .github ds o.errors = some ⟨ds.flatMap (fun d => line (githubText d (d.location.getD (0, 0)).1
      ((d.location.getD (0, 0)).2 + 1))), []⟩ := by
    show emitGithub _ = _
    unfold emitGithub
    rw [emitAll_some (g := fun d => line (githubText d (d.location.getD (0, 0)).1 ((d.location.getD (0, 0)).2 + 1)))]
    · rfl
    · intro d hx
      cases e : d.location with
      | none => exact absurd e (hd d hx).1
      | some rc => rw [githubLine_text (row := rc.1) (col := rc.2) (by rw [e])]; rfl
  rw [he]
  refine ⟨_, rfl, ?_⟩
  unfold commands lines
  have := splitOn_lines (g := fun d => githubText d (d.location.getD (0, 0)).1 ((d.location.getD (0, 0)).2 + 1)) [] (ds := ds)
    (fun d hx => githubText_line _ _ (hd d hx) _ (.inl rfl))
  rw [List.append_nil] at this
  rw [this]
  clear this he
  induction ds with
  | nil => rfl
  | cons d ds ih =>
    rw [List.map_cons, List.cons_append, List.flatMap_cons, List.filterMap_append, ih (fun x hx => hd x (by simp [hx])),
      splitOn_no (githubText_line _ _ (hd d (by simp)) _ (.inr rfl))]
    have hs := hd d (by simp)
    cases e : d.location with
    | none => exact absurd e hs.1
    | some rc =>
      have hx := readCommand_text rc.1 (rc.2 + 1) hs.2.1 hs.2.2.1 hs.2.2.2.2
      simp [hx, e]

end Jarl

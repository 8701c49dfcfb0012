import Verif.Config
import Verif.Spec.Description
/-!
# C26: the R version of a DESCRIPTION file
-/
namespace Jarl
open Spec

theorem splitInclusive_append {c : Char} {a : Str} (h : c ∉ a) (b : Str) :
    splitInclusive c (a ++ c :: b) = (a ++ [c]) :: splitInclusive c b := by
  induction a with
  | nil => simp [splitInclusive]
  | cons d ds ih =>
    simp at h
    simp only [List.cons_append, splitInclusive]
    rw [if_neg (fun e => h.1 e.symm), ih h.2]

theorem stripEol_line {l : Str} (h : OneLine l) : stripEol (l ++ ['\n']) = l := by
  unfold stripEol
  rw [List.reverse_append]
  simp only [List.reverse_cons, List.reverse_nil, List.nil_append, List.cons_append]
  split
  · rename_i r he
    simp at he
    have : '\r' ∈ l.reverse := by rw [he]; simp
    exact absurd (List.mem_reverse.mp this) h.2
  · rename_i r _ he
    simp at he
    rw [← he, List.reverse_reverse]
  · rename_i h1 h2
    exact absurd rfl (h2 _)

theorem stripEol_crlf (l : Str) : stripEol (l ++ ['\r', '\n']) = l := by
  unfold stripEol
  rw [List.reverse_append]
  simp

theorem rustLines_render {eol : Str} (he : LineEnd eol) {ls : List Str} (h : ∀ l ∈ ls, OneLine l) :
    rustLines (ls.flatMap (fun l => l ++ eol)) = ls := by
  unfold rustLines
  induction ls with
  | nil => rfl
  | cons l ls ih =>
    have hl := h l (by simp)
    have := ih (fun x hx => h x (by simp [hx]))
    rcases he with rfl | rfl
    · simp only [List.flatMap_cons, List.append_assoc, List.singleton_append] at this ⊢
      rw [splitInclusive_append hl.1]
      simp only [List.map_cons, this, stripEol_line hl]
    · have hn : '\n' ∉ l ++ ['\r'] := by simp [hl.1]
      have e : ∀ t : Str, l ++ ['\r', '\n'] ++ t = (l ++ ['\r']) ++ '\n' :: t := by simp
      rw [List.flatMap_cons, e, splitInclusive_append hn]
      simp only [List.map_cons, this]
      congr 1
      rw [List.append_assoc]
      exact stripEol_crlf l

/-- The fields collected so far, including the pending one. -/
def DcfState.out (st : DcfState) : List (Str × Str) :=
  match st.key with
  | some key => st.fields ++ [(key, trim st.value)]
  | none => st.fields

theorem dcf_conts (conts : List Str) (st : DcfState)
    (h : ∀ l ∈ conts, ∃ c r, l = c :: r ∧ isWs c = true) :
    conts.foldl dcfStep st = { st with value := st.value ++ conts.flatMap (fun l => trim l ++ [' ']) } := by
  induction conts generalizing st with
  | nil => simp
  | cons l ls ih =>
    obtain ⟨c, r, rfl, hc⟩ := h l (by simp)
    rw [List.foldl_cons, ih _ (fun x hx => h x (by simp [hx]))]
    simp [dcfStep, hc, List.append_assoc]

theorem trim_space_cons (s : Str) : trim (' ' :: s) = trim s := by
  unfold trim
  have := trimStart_ws_append (w := [' ']) (s := s) (by simp [isWs_space])
  simp at this
  rw [this]

theorem dcf_field (f : DcfField) (wf : f.WF) (st : DcfState) :
    (f.lines.foldl dcfStep st).out = st.out ++ [(trim f.key, f.value)] := by
  obtain ⟨c, k, hk, hc⟩ := wf.key_start
  unfold DcfField.lines
  rw [List.foldl_cons, dcf_conts _ _ wf.conts_indented]
  have hs : splitFirst ':' (f.key ++ ':' :: f.head) = some (f.key, f.head) :=
    splitFirst_iff.mpr ⟨rfl, wf.key_colon⟩
  have hstep : dcfStep st (f.key ++ ':' :: f.head) =
      { fields := st.out, key := some (trim f.key),
        value := if (trim f.head).isEmpty then trim f.head else trim f.head ++ [' '] } := by
    unfold dcfStep DcfState.out
    rw [hk] at hs ⊢
    simp only [List.cons_append] at hs ⊢
    simp only [hc, hs]
    cases st.key <;> simp
  rw [hstep]
  simp only [DcfState.out, DcfField.value, List.flatMap_cons]
  cases h : (trim f.head).isEmpty with
  | false => simp
  | true =>
    rw [List.isEmpty_iff] at h
    simp [h, trim_space_cons]

theorem dcf_fields (fs : List DcfField) (wf : ∀ f ∈ fs, f.WF) (st : DcfState) :
    ((fs.flatMap DcfField.lines).foldl dcfStep st).out =
      st.out ++ fs.map (fun f => (trim f.key, f.value)) := by
  induction fs generalizing st with
  | nil => simp
  | cons f fs ih =>
    simp only [List.flatMap_cons, List.foldl_append]
    rw [ih (fun g hg => wf g (by simp [hg])), dcf_field f (wf f (by simp))]
    simp

/-- Parsing a rendered DESCRIPTION file gives back its fields with unfolded values. -/
theorem parseDcf_render {eol : Str} (he : LineEnd eol) (fs : List DcfField) (wf : ∀ f ∈ fs, f.WF) :
    parseDcf (renderDcf eol fs) = fs.map (fun f => (trim f.key, f.value)) := by
  have hl : ∀ l ∈ fs.flatMap DcfField.lines, OneLine l := by
    intro l hl
    obtain ⟨f, hf, h⟩ := List.mem_flatMap.mp hl
    have w := wf f hf
    rcases List.mem_cons.mp h with rfl | h
    · exact ⟨by simp [w.key_line.1, w.head_line.1], by simp [w.key_line.2, w.head_line.2]⟩
    · exact w.conts_line l h
  have := dcf_fields fs wf ⟨[], none, []⟩
  unfold parseDcf renderDcf
  rw [rustLines_render he hl]
  simp only [DcfState.out, List.nil_append] at this ⊢
  exact this

theorem lookupLast_last {k : Str} {pre post : List (Str × Str)} {v : Str}
    (h : ∀ p ∈ post, p.1 ≠ k) : lookupLast k (pre ++ (k, v) :: post) = some v := by
  unfold lookupLast
  rw [List.reverse_append, List.reverse_cons, List.append_assoc, List.find?_append]
  have : post.reverse.find? (fun p => decide (p.1 = k)) = none := by
    rw [List.find?_eq_none]
    intro p hp
    simp [h p (List.mem_reverse.mp hp)]
  rw [this]
  simp

theorem dropGe_no {w : Str} (h : '>' ∉ w) : dropGe w = w := by
  induction w with
  | nil => rfl
  | cons c cs ih =>
    simp at h
    unfold dropGe
    split
    · rename_i he; cases he
    · rename_i he; cases he; exact absurd rfl h.1
    · rename_i he; cases he; rw [ih h.2]

theorem extractVersion_req {dep v : Str} (h : RRequirement dep v) : extractVersion dep = .ok v := by
  obtain ⟨a, w, b, rfl, h1, h2, h3, h4, h5, h6⟩ := h
  have hs1 : splitFirst '(' (a ++ '(' :: '>' :: '=' :: (w ++ ')' :: b)) =
      some (a, '>' :: '=' :: (w ++ ')' :: b)) := splitFirst_iff.mpr ⟨rfl, h1⟩
  have hs2 : splitFirst ')' (a ++ '(' :: '>' :: '=' :: (w ++ ')' :: b)) =
      some (a ++ '(' :: '>' :: '=' :: w, b) := by
    rw [splitFirst_iff]
    refine ⟨by simp, ?_⟩
    simp [h2, h3]
  have hsl : slice (blen a + 1) (blen (a ++ '(' :: '>' :: '=' :: w))
      (a ++ '(' :: '>' :: '=' :: (w ++ ')' :: b)) = some ('>' :: '=' :: w) := by
    rw [slice_iff]
    refine ⟨a ++ ['('], ')' :: b, by simp, by simp [Char.utf8Size], ?_⟩
    simp [Char.utf8Size]
    omega
  unfold extractVersion
  rw [hs1, hs2]
  simp only [hsl]
  have : dropGe ('>' :: '=' :: w) = w := by
    rw [dropGe, dropGe_no h4]
  rw [this, ← h5]
  simp [h6]

theorem collectVersions_req {deps vs : List Str} (h : Requirements deps vs) :
    collectVersions deps = .ok vs := by
  induction h with
  | nil => rfl
  | cons h _ ih => simp [collectVersions, extractVersion_req h, ih]

theorem filter_R (l : List Str) :
    l.filter (fun s => !s.isEmpty && startsWith (cs! "R ") s) = l.filter (fun e => startsWith (cs! "R ") e) := by
  apply List.filter_congr
  intro s _
  cases s with
  | nil => simp [startsWith, stripPrefix]
  | cons c cs => simp

/-- C26: for a DESCRIPTION file made of the fields `pre ++ [f] ++ post`, where `f` is the last field
called `Depends`, the R versions found are those of the R entries of `f`'s unfolded value, in order —
whatever the other fields are and however the lines of `f` are folded. -/
theorem C26_depends_versions {eol : Str} (he : LineEnd eol) (pre post : List DcfField) (f : DcfField)
    (wf : ∀ g ∈ pre ++ f :: post, g.WF)
    (hk : trim f.key = cs! "Depends") (hlast : ∀ g ∈ post, trim g.key ≠ cs! "Depends")
    (vs : List Str) (hreq : Requirements (rEntries f.value) vs) :
    getDependRVersion (renderDcf eol (pre ++ f :: post)) = .ok vs := by
  unfold getDependRVersion
  rw [parseDcf_render he _ wf]
  simp only [List.map_append, List.map_cons, hk]
  rw [lookupLast_last]
  · simp only [filter_R]
    exact collectVersions_req hreq
  · intro p hp
    obtain ⟨g, hg, rfl⟩ := List.mem_map.mp hp
    exact hlast g hg

/-- C26: without a `Depends` field no version is found. -/
theorem C26_no_depends {eol : Str} (he : LineEnd eol) (fs : List DcfField) (wf : ∀ g ∈ fs, g.WF)
    (h : ∀ g ∈ fs, trim g.key ≠ cs! "Depends") : getDependRVersion (renderDcf eol fs) = .ok [] := by
  unfold getDependRVersion
  rw [parseDcf_render he _ wf]
  have : lookupLast (cs! "Depends") (fs.map (fun f => (trim f.key, f.value))) = none := by
    unfold lookupLast
    rw [Option.map_eq_none_iff, List.find?_eq_none]
    intro p hp
    obtain ⟨g, hg, rfl⟩ := List.mem_map.mp (List.mem_reverse.mp hp)
    simp [h g hg]
  rw [this]

/-- C26: the version used for the project is that of the first R entry; later paths are not consulted. -/
theorem C26_project_version {eol : Str} (he : LineEnd eol) (args : ArgsConfig) (pre post : List DcfField) (f : DcfField)
    (wf : ∀ g ∈ pre ++ f :: post, g.WF)
    (hk : trim f.key = cs! "Depends") (hlast : ∀ g ∈ post, trim g.key ≠ cs! "Depends")
    (v : Str) (vs : List Str) (hreq : Requirements (rEntries f.value) (v :: vs))
    (rv : RVersion) (hv : parseRVersion v = some rv) (hcli : args.minRVersion = none)
    (rest : List DescProbe) (before : List DescProbe) (hb : ∀ p ∈ before, p = .absent) :
    determineMinimumRVersion args (before ++ .text (renderDcf eol (pre ++ f :: post)) :: rest) = .ok (some rv) := by
  unfold determineMinimumRVersion
  rw [hcli]
  simp only []
  induction before with
  | nil => simp [minVersionFromDesc, C26_depends_versions he pre post f wf hk hlast _ hreq, hv]
  | cons p ps ih =>
    rw [hb p (by simp), List.cons_append, minVersionFromDesc]
    exact ih (fun q hq => hb q (by simp [hq]))

/-- A folded Depends field with an R requirement on its second line. -/
def exField : DcfField :=
  ⟨cs! "Depends", cs! " methods,", [cs! "    R (>= 4.3.0),", cs! "\tstats"]⟩
def exTitle : DcfField := ⟨cs! "Title", cs! " Depends: R (>= 1.0)", []⟩

example : exField.WF ∧ exTitle.WF := by
  constructor <;>
    refine ⟨⟨by decide, by decide⟩, ⟨_, _, rfl, by decide⟩, by decide, ⟨by decide, by decide⟩, ?_, ?_⟩
  · intro l hl
    simp only [exField, List.mem_cons, List.not_mem_nil, or_false] at hl
    rcases hl with rfl | rfl <;> exact ⟨by decide, by decide⟩
  · intro l hl
    simp only [exField, List.mem_cons, List.not_mem_nil, or_false] at hl
    rcases hl with rfl | rfl <;> exact ⟨_, _, rfl, by decide⟩
  · intro l hl; cases hl
  · intro l hl; cases hl

example : rEntries exField.value = [cs! "R (>= 4.3.0)"] ∧ RRequirement (cs! "R (>= 4.3.0)") (cs! "4.3.0") := by
  refine ⟨by decide, cs! "R ", cs! " 4.3.0", [], ?_⟩
  decide

/-- Finding: an R entry without a parenthesised version makes the program panic
(description.rs:56 `unreachable!`). -/
theorem C26_panics_without_version :
    getDependRVersion (cs! "Depends: R >= 4.3\n") = .panic := by decide

end Jarl

import Verif.Lemmas.RTogether
import Verif.Props.RLawsMain
import Verif.Props.RLawsExamples
import Verif.Props.RVisitRules
/-!
# C57: several fixes in one pass
-/
namespace Jarl
open Spec

theorem replaceAll_last (p : Node) (l : List (List Nat × Node)) (ps x) : replaceAll p (l ++ [(ps, x)]) = replaceAll (replaceAt p ps x) l := by
  induction l with
  | nil => rfl
  | cons a l ih => simp only [List.cons_append, replaceAll, ih]

theorem together_n : ∀ (n : Nat) (eds : List Edit) (p : Node) (ts out : List Tok), eds.length = n → Parses ts p → (∀ ed ∈ eds, GoodFix p ed) →
    Patched 0 ts (eds.map cutOf) out → ∃ q, Parses out q ∧ Together eds p q := by
  intro n
  induction n with
  | zero =>
    intro eds p ts out hn hp _ h
    cases List.eq_nil_of_length_eq_zero hn
    cases h
    exact ⟨p, hp, [], rfl, rfl, by simp⟩
  | succ n ih =>
    intro eds p ts out hn hp hg h
    rcases List.eq_nil_or_concat eds with rfl | ⟨init, b, rfl⟩
    · cases hn
    rw [List.concat_eq_append] at *
    have hlen : init.length = n := by simpa using hn
    obtain ⟨hbp, hbe, y, hy, hty, hpy⟩ := hg b (by simp)
    rw [List.map_append] at h
    obtain ⟨pre, old, post, hts, h1, h2, h3, h4⟩ := Patched.last h
    have htb : pre = beforeToks b.z.fs ∧ post = afterToks b.z.fs := by
      have e1 : beforeToks b.z.fs ++ toks b.z.e ++ afterToks b.z.fs = pre ++ old ++ post := by
        rw [← toks_plug, ← hts, ← hp.2.2, ← hbp]; rfl
      simp only [cutOf] at h1 h2
      rw [List.append_assoc, List.append_assoc] at e1
      obtain ⟨e2, e3⟩ := List.append_inj e1 (by omega)
      obtain ⟨_, e4⟩ := List.append_inj e3 (by omega)
      exact ⟨e2.symm, e4.symm⟩
    rw [htb.1, htb.2] at h4
    have hch : ∀ a, ∃ a' : Edit, a ∈ init → (GoodFix (plug b.z.fs y) a' ∧ cutOf a' = cutOf a ∧ path a'.z.fs = path a.z.fs ∧ a'.z.e = a.z.e ∧ a'.content = a.content ∧
        (∀ x, Parses (edited a') (plug a'.z.fs x) → isExpr x = true → toks x = (cutOf a).new → Parses (edited a) (plug a.z.fs x))) := by
      intro a
      by_cases ha : a ∈ init
      · obtain ⟨a', h⟩ := goodFix_after hp (hg a (by simp [ha])) (hg b (by simp)) (h3 _ (List.mem_map_of_mem ha)) hpy
        exact ⟨a', fun _ => ⟨h.1, h.2.1, h.2.2.1, h.2.2.2.1, h.2.2.2.2.1, h.2.2.2.2.2.1⟩⟩
      · exact ⟨a, fun h => absurd h ha⟩
    obtain ⟨f, hf⟩ := Classical.axiomOfChoice hch
    have hcut : (init.map f).map cutOf = init.map cutOf := by
      rw [List.map_map]; exact List.map_congr_left fun a ha => (hf a ha).2.1
    have hpath : (init.map f).map (fun ed => path ed.z.fs) = init.map (fun ed => path ed.z.fs) := by
      rw [List.map_map]; exact List.map_congr_left fun a ha => (hf a ha).2.2.1
    obtain ⟨q, hq, news, hnl, hqe, hnew⟩ := ih (init.map f) (plug b.z.fs y) (edited b) out (by simp [hlen]) hpy
      (by intro ed hed; obtain ⟨a, ha, rfl⟩ := List.mem_map.mp hed; exact (hf a ha).1) (by rw [hcut]; exact h4)
    have hnl' : news.length = init.length := by simpa using hnl
    refine ⟨q, hq, news ++ [y], by simp [hnl'], ?_, ?_⟩
    · rw [List.map_append, List.zip_append (by simp [hnl']), hqe, hpath]
      simp only [List.map_cons, List.map_nil, List.zip_cons_cons, List.zip_nil_right]
      rw [replaceAll_last, ← hbp, Zip.prog, replaceAt_path]
    · rw [List.zip_append hnl']
      intro ne hne
      rcases List.mem_append.mp hne with hne | hne
      · have hm : (ne.1, f ne.2) ∈ List.zip news (init.map f) := by
          rw [List.zip_map_right]; exact List.mem_map.mpr ⟨ne, hne, rfl⟩
        obtain ⟨k1, k2, k3⟩ := hnew _ hm
        have hmem : ne.2 ∈ init := (List.of_mem_zip hne).2
        obtain ⟨_, _, _, g1, g2, g3⟩ := hf ne.2 hmem
        simp only [g1, g2] at k2
        exact ⟨k1, k2, g3 _ k3 k1 k2⟩
      · simp only [List.zip_cons_cons, List.zip_nil_right, List.mem_singleton] at hne
        subst hne
        exact ⟨hy, hty, hpy⟩

/-- If each of the fixes alone keeps the structure of the program, then all of them carried out at once, at places that do not overlap, give R code, and R reads it as the old
program with the replaced expressions exchanged, each for what its fix alone would have put there. -/
theorem C57_fixes_together (p : Node) (ts out : List Tok) (eds : List Edit) (hp : Parses ts p) (hg : ∀ ed ∈ eds, GoodFix p ed) (h : Patched 0 ts (eds.map cutOf) out) :
    ∃ q, Parses out q ∧ Together eds p q :=
  together_n _ eds p ts out rfl hp hg h

/-- Cuts can be made exactly if they are in order and do not overlap, and then there is one result. -/
theorem C57_cuts_possible (i : Nat) (ts : List Tok) (cs : List Cut) : (∃ out, Patched i ts cs out) ↔ Ordered i (i + ts.length) cs := by
  induction cs generalizing i ts with
  | nil => exact ⟨fun _ => Nat.le_add_right _ _, fun _ => ⟨ts, .done _ _⟩⟩
  | cons c cs ih =>
    constructor
    · rintro ⟨out, h⟩
      cases h with
      | @cut _ keep old rest _ _ out h1 h2 h3 =>
        have := (ih c.stop rest).mp ⟨out, h3⟩
        refine ⟨by omega, by omega, ?_⟩
        have hl : c.stop + rest.length = i + (keep ++ old ++ rest).length := by simp; omega
        rw [← hl]; exact this
    · rintro ⟨h1, h2, h3⟩
      have hle : ∀ {j n} {cs : List Cut}, Ordered j n cs → j ≤ n := by
        intro j n cs
        induction cs generalizing j with
        | nil => exact id
        | cons c cs ih => rintro ⟨a, b, c⟩; have := ih c; omega
      have h4 := hle h3
      have hs : ts = ts.take (c.start - i) ++ (ts.drop (c.start - i)).take (c.stop - c.start) ++ (ts.drop (c.start - i)).drop (c.stop - c.start) := by
        rw [List.append_assoc, List.take_append_drop, List.take_append_drop]
      obtain ⟨out, ho⟩ := (ih c.stop ((ts.drop (c.start - i)).drop (c.stop - c.start))).mpr (by
        simp only [List.length_drop]
        have : c.stop + (ts.length - (c.start - i) - (c.stop - c.start)) = i + ts.length := by omega
        rw [this]; exact h3)
      refine ⟨ts.take (c.start - i) ++ c.new ++ out, ?_⟩
      have := Patched.cut (i := i) (keep := ts.take (c.start - i)) (old := (ts.drop (c.start - i)).take (c.stop - c.start)) (c := c)
        (by rw [List.length_take]; omega) (by rw [List.length_take, List.length_drop]; omega) ho
      rw [← hs] at this
      exact this

theorem C57_cuts_unique {i : Nat} {ts : List Tok} {cs : List Cut} {a b : List Tok} (ha : Patched i ts cs a) (hb : Patched i ts cs b) : a = b := by
  induction cs generalizing i ts a b with
  | nil => cases ha; cases hb; rfl
  | cons c cs ih =>
    generalize hts : ts = ts' at hb
    cases ha with
    | @cut _ k1 o1 r1 _ _ out1 h1 h2 h3 =>
      cases hb with
      | @cut _ k2 o2 r2 _ _ out2 g1 g2 g3 =>
        rw [List.append_assoc, List.append_assoc] at hts
        obtain ⟨rfl, e⟩ := List.append_inj hts (by omega)
        obtain ⟨rfl, rfl⟩ := List.append_inj e (by omega)
        rw [ih h3 g3]

/-- Whatever the pass does with the fixes of these rules: the program stays R code, and R reads the old program with some expressions exchanged. -/
theorem C57_pass (ts out : List Tok) (p : Node) (eds : List Edit) (hp : Parses ts p)
    (he : ∀ ed ∈ eds, ∃ r ∈ keepingRules, ∃ z, z.prog = p ∧ r.2 z = some ed ∧ innerComments (toks ed.z.e) = false) (h : Patched 0 ts (eds.map cutOf) out) :
    ∃ q, Parses out q ∧ Together eds p q := by
  refine C57_fixes_together p ts out eds hp (fun ed hed => ?_) h
  obtain ⟨r, hr, z, hz, ho, hc⟩ := he ed hed
  exact C51_fixes_keep_structure r hr ts p z ed hp hz ho hc

/-- The fixes that the walk over the program finds, if only rules that keep the structure are enabled. -/
theorem C57_proposed (enabled : Str → Bool) (want : Op) (hen : ∀ r ∈ fixRules want, enabled r.1 = true → r ∈ keepingRules) (ts out : List Tok) (p : Node)
    (eds : List Edit) (hp : Parses ts p) (he : ∀ ed ∈ eds, ed ∈ proposed enabled want p ∧ innerComments (toks ed.z.e) = false) (h : Patched 0 ts (eds.map cutOf) out) :
    ∃ q, Parses out q ∧ Together eds p q := by
  refine C57_pass ts out p eds hp (fun ed hed => ?_) h
  obtain ⟨h1, h2⟩ := he ed hed
  obtain ⟨z, hz, r, hr, hen', ho⟩ := (C53_proposed enabled want p ed).mp h1
  exact ⟨r, hen r hr hen', z, hz.1, ho, h2⟩

/-- However many passes: R code stays R code. -/
theorem C57_passes (ts out : List Tok) (h : FixPasses keepingRules ts out) (hp : ∃ p, Parses ts p) : ∃ q, Parses out q := by
  induction h with
  | none => exact hp
  | more _ hs ih =>
    obtain ⟨p, eds, hp, he, h⟩ := hs
    obtain ⟨q, hq, _⟩ := C57_pass _ _ p eds hp he h
    exact ⟨q, hq⟩

/-- Each of the expressions put in is the documented one. -/
theorem C57_as_documented (ts out : List Tok) (p : Node) (eds : List Edit) (name : Edit → Str) (hp : Parses ts p)
    (he : ∀ ed ∈ eds, ∃ r ∈ lawRules, r.1 = name ed ∧ (r.1, r.2.1) ∈ keepingRules ∧ ∃ z, z.prog = p ∧ r.2.1 z = some ed ∧ innerComments (toks ed.z.e) = false ∧
      piped ed.z.fs = false ∧ r.2.2 ed.z)
    (h : Patched 0 ts (eds.map cutOf) out) :
    ∃ news, news.length = eds.length ∧ Parses out (replaceAll p (List.zip (eds.map fun ed => path ed.z.fs) news)) ∧
      ∀ ne ∈ List.zip news eds, Law (name ne.2) (core ne.2.z.e) (core ne.1) := by
  obtain ⟨q, hq, news, hl, rfl, hn⟩ := C57_pass ts out p eds hp (fun ed hed => by
    obtain ⟨r, _, _, hk, z, hz, ho, hc, _⟩ := he ed hed
    exact ⟨_, hk, z, hz, ho, hc⟩) h
  refine ⟨news, hl, hq, fun ne hne => ?_⟩
  obtain ⟨r, hr, hname, _, z, hz, ho, hc, hpi, hcond⟩ := he ne.2 (List.of_mem_zip hne).2
  rw [← hname]
  exact C52_fixes_as_documented r hr ts p z ne.2 ne.1 hp hz ho hc hpi hcond (hn ne hne)

/-! ## Examples -/

/-- `y <- f(any(is.na(x)), length(levels(x)))`: two fixes inside of one call. -/
def twoZ1 : Zip := ⟨[.commaA .none (cl (cs! "length") (cl (cs! "levels") x')), .callA (nm (cs! "f")) .none .par .none, .binR (nm (cs! "y")) .none .assign, stmt1],
  cl (cs! "any") (cl (cs! "is.na") x')⟩

def twoZ2 : Zip := ⟨[.commaR (cl (cs! "any") (cl (cs! "is.na") x')) .none, .callA (nm (cs! "f")) .none .par .none, .binR (nm (cs! "y")) .none .assign, stmt1],
  cl (cs! "length") (cl (cs! "levels") x')⟩

theorem C57_ex_two : ∃ e1 e2, anyIsNa twoZ1 = some e1 ∧ lengthLevels twoZ2 = some e2 ∧ twoZ1.prog = twoZ2.prog ∧ Parses (toks twoZ1.prog) twoZ1.prog ∧
    innerComments (toks e1.z.e) = false ∧ innerComments (toks e2.z.e) = false ∧
    Patched 0 (toks twoZ1.prog) ([e1, e2].map cutOf)
      (toks (prog1 (op (nm (cs! "y")) .assign (cl (cs! "f") (a2 (cl (cs! "anyNA") x') (cl (cs! "nlevels") x')))))) := by
  refine ⟨_, _, rfl, rfl, rfl, parses_of (by decide +kernel), by decide +kernel, by decide +kernel, ?_⟩
  refine .cut (keep := (toks twoZ1.prog).take 4) (old := (toks twoZ1.prog).drop 4 |>.take 7) (rest := (toks twoZ1.prog).drop 11) rfl rfl ?_
  exact .cut (keep := (toks twoZ1.prog).drop 11 |>.take 1) (old := (toks twoZ1.prog).drop 12 |>.take 7) (rest := (toks twoZ1.prog).drop 19) rfl rfl (.done _ _)

end Jarl

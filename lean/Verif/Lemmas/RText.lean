import Verif.Spec.RText
import Verif.Props.LspActions
import Verif.Lemmas.RTogether
/-!
# Lemmas: the text of R code
-/
namespace Jarl
open Spec

/-! ### Cutting text is cutting tokens -/

/-- A replacement: the tokens from number `i` to number `j` (excluded), and the new pieces. -/
structure Swap where
  i : Nat
  j : Nat
  new : List Piece

def Swap.fix (ps : List Piece) (w : Swap) (skip : Bool) : Fix := ⟨piecesText w.new, (trimmedRange ps w.i w.j).1, (trimmedRange ps w.i w.j).2, skip⟩

def Swap.cut (ps : List Piece) (w : Swap) : Cut := ⟨w.i, w.j, joinHead (headGap (piecesToks (ps.drop w.i))) (piecesToks w.new)⟩

theorem piecesText_append (a b : List Piece) : piecesText (a ++ b) = piecesText a ++ piecesText b := by
  induction a with
  | nil => rfl
  | cons p a ih => simp [piecesText, ih]

theorem blen_pos {s : Str} (h : s ≠ []) : 0 < blen s := by
  cases s with
  | nil => exact absurd rfl h
  | cons c s => have := Char.utf8Size_pos c; simp only [blen]; omega

theorem drop_head {α} (l : List α) (i : Nat) (h : i < l.length) : ∃ x, l.drop i = x :: l.drop (i + 1) := ⟨l[i], List.drop_eq_getElem_cons h⟩

/-- The pieces after the swaps: `ps` from number `i` on. -/
inductive Swapped : Nat → List Piece → List Swap → List Piece → Prop
  | done (i ps) : Swapped i ps [] ps
  | swap {i keep p old rest w ws c cs out} : i + keep.length = w.i → w.i + (p :: old).length = w.j → w.new = c :: cs → Swapped w.j rest ws out →
      Swapped i (keep ++ p :: old ++ rest) (w :: ws) (keep ++ { c with gap := p.gap } :: cs ++ out)

theorem swapped_of_rewritten (ps : List Piece) (tail : Str) (hne : ∀ p ∈ ps, p.k.text ≠ []) :
    ∀ (ws : List (Swap × Bool)) (i : Nat) (out : Str), i ≤ ps.length → (∀ w ∈ ws, w.1.i < w.1.j ∧ w.1.j ≤ ps.length ∧ ∃ c cs, w.1.new = c :: cs ∧ c.gap = []) →
    Rewritten (blen (piecesText (ps.take i))) (piecesText (ps.drop i) ++ tail) (ws.map fun w => w.1.fix ps w.2) out →
    ∃ ps', out = piecesText ps' ++ tail ∧ Swapped i (ps.drop i) (ws.map (·.1)) ps' := by
  intro ws
  induction ws with
  | nil =>
    intro i out _ _ h
    rw [List.map_nil] at h
    generalize ht : piecesText (ps.drop i) ++ tail = text at h
    cases h
    subst ht
    exact ⟨ps.drop i, rfl, .done _ _⟩
  | cons w ws ih =>
    intro i out hi hw h
    obtain ⟨w, sk⟩ := w
    obtain ⟨h1, h2, c, cs, hc, hcg⟩ := hw _ (List.mem_cons_self ..)
    replace h1 : w.i < w.j := h1
    replace h2 : w.j ≤ ps.length := h2
    replace hc : w.new = c :: cs := hc
    have hw' := fun w hm => hw w (List.mem_cons_of_mem _ hm)
    obtain ⟨p, hp⟩ := drop_head ps w.i (by omega)
    rw [List.map_cons] at h
    generalize hfs : (ws.map fun w => w.1.fix ps w.2) = fs at h
    generalize ht : piecesText (ps.drop i) ++ tail = text at h
    cases h with
    | @fix _ keep old rest _ _ out e1 e2 h3 =>
      have es : (w.fix ps sk).start = blen (piecesText (ps.take w.i)) + blen p.gap := by
        simp [Swap.fix, trimmedRange, hp]
      have ee : (w.fix ps sk).stop = blen (piecesText (ps.take w.j)) := rfl
      have hpk : p.k.text ≠ [] := hne p (by
        have : p ∈ ps.drop w.i := by rw [hp]; exact List.mem_cons_self ..
        exact List.mem_of_mem_drop this)
      have hii : i ≤ w.i := by
        by_cases hlt : w.i < i
        · exfalso
          have hs : ps.take i = ps.take w.i ++ [p] ++ (ps.take i).drop (w.i + 1) := by
            have e : ps.take w.i ++ [p] = ps.take (w.i + 1) := by
              have := List.take_append_drop (w.i + 1) ps
              have g : ps = ps.take w.i ++ (p :: ps.drop (w.i + 1)) := by rw [← hp, List.take_append_drop]
              rw [← List.take_append_drop (w.i+1) ps] at g
              have g2 : ps.take (w.i + 1) ++ ps.drop (w.i + 1) = (ps.take w.i ++ [p]) ++ ps.drop (w.i + 1) := by
                rw [List.append_assoc]; exact g.trans (by rw [List.take_append_drop]; rfl)
              exact (List.append_inj g2 (by simp; omega)).1.symm
            rw [e]
            have : ps.take (w.i + 1) = (ps.take i).take (w.i + 1) := by rw [List.take_take]; congr 1; omega
            rw [this, List.take_append_drop]
          have hb : blen (piecesText (ps.take i)) = blen (piecesText (ps.take w.i)) + (blen p.gap + blen p.k.text) + blen (piecesText ((ps.take i).drop (w.i + 1))) := by
            conv => lhs; rw [hs]
            simp [piecesText_append, piecesText, blen_append]
            omega
          have := blen_pos hpk
          rw [es] at e1
          omega
        · omega
      -- the parts
      have hmid : ps.drop i = (ps.drop i).take (w.i - i) ++ ps.drop w.i := by
        conv => lhs; rw [← List.take_append_drop (w.i - i) (ps.drop i)]
        rw [List.drop_drop]; congr 2; omega
      have hold : ps.drop w.i = p :: (ps.drop (w.i + 1)).take (w.j - w.i - 1) ++ ps.drop w.j := by
        rw [hp, List.cons_append]
        congr 1
        conv => lhs; rw [← List.take_append_drop (w.j - w.i - 1) (ps.drop (w.i + 1))]
        rw [List.drop_drop]; congr 2; omega
      have htk : ps.take w.i = ps.take i ++ (ps.drop i).take (w.i - i) := by
        have := List.take_add (l := ps) (i := i) (j := w.i - i)
        rw [show i + (w.i - i) = w.i by omega] at this
        exact this
      have htj : ps.take w.j = ps.take w.i ++ (p :: (ps.drop (w.i + 1)).take (w.j - w.i - 1)) := by
        have := List.take_add (l := ps) (i := w.i) (j := w.j - w.i)
        rw [show w.i + (w.j - w.i) = w.j by omega] at this
        rw [this, hp]
        congr 1
        rw [show w.j - w.i = (w.j - w.i - 1) + 1 by omega, List.take_succ_cons]
        rfl
      generalize hM : (ps.drop i).take (w.i - i) = mid at *
      generalize hO : (ps.drop (w.i + 1)).take (w.j - w.i - 1) = more at *
      have htext : (piecesText mid ++ p.gap) ++ ((p.k.text ++ piecesText more) ++ (piecesText (ps.drop w.j) ++ tail)) = keep ++ (old ++ rest) := by
        rw [← List.append_assoc keep, ← ht, hmid, hold]
        simp [piecesText_append, piecesText]
      have hkeep := append_of_blen_eq htext (by
        rw [es, htk, piecesText_append, blen_append] at e1
        rw [blen_append]; omega)
      have hold2 := append_of_blen_eq hkeep.2 (by
        rw [ee, es, htj, piecesText_append, blen_append] at e2
        simp only [piecesText, blen_append] at e2 ⊢
        omega)
      rw [← hold2.2, ee, ← hfs] at h3
      obtain ⟨ps', ho, hsw⟩ := ih w.j out h2 hw' h3
      refine ⟨mid ++ { c with gap := p.gap } :: cs ++ ps', ?_, ?_⟩
      · rw [← hkeep.1, ho]
        simp only [Swap.fix, hc]
        simp [piecesText_append, piecesText, hcg]
      · rw [hmid, hold, ← List.append_assoc]
        refine .swap ?_ ?_ hc hsw
        · rw [← hM]; simp; omega
        · rw [← hO]; simp; omega

theorem gapOf_nil : gapOf [] = .none := rfl

theorem joinGap_none (g : Gap) : joinGap g .none = g := by cases g <;> rfl

theorem piecesToks_append (a b : List Piece) : piecesToks (a ++ b) = piecesToks a ++ piecesToks b := List.map_append

/-- What the swaps do to the tokens. -/
theorem patched_of_swapped (ps : List Piece) : ∀ {i qs ws out}, Swapped i qs ws out → qs = ps.drop i → i ≤ ps.length →
    (∀ w ∈ ws, ∃ c cs, w.new = c :: cs ∧ c.gap = []) → Patched i (piecesToks qs) (ws.map (·.cut ps)) (piecesToks out) := by
  intro i qs ws out h
  induction h with
  | done => intro _ _ _; exact .done _ _
  | @swap i keep p old rest w ws c cs out h1 h2 hc _ ih =>
    intro hq hi hw
    obtain ⟨c', cs', hc', hcg⟩ := hw w (List.mem_cons_self ..)
    rw [hc] at hc'
    cases hc'
    have hdi : ps.drop w.i = p :: old ++ rest := by
      have : ps.drop w.i = (ps.drop i).drop keep.length := by rw [List.drop_drop, h1]
      rw [this, ← hq, List.append_assoc, List.drop_left' rfl]
    have hlen : (p :: old).length ≤ ps.length - w.i := by
      have := congrArg List.length hdi
      simp at this ⊢
      omega
    have hij : w.i < ps.length := by simp at hlen; omega
    have hr : rest = ps.drop w.j := by
      rw [← h2, ← List.drop_drop, hdi, List.drop_left' rfl]
    have := ih hr (by simp at *; omega) (fun w hm => hw w (List.mem_cons_of_mem _ hm))
    rw [piecesToks_append, piecesToks_append, piecesToks_append, piecesToks_append, List.map_cons]
    have hnew : piecesToks ({ c with gap := p.gap } :: cs) = (w.cut ps).new := by
      simp only [Swap.cut, hdi, hc, piecesToks, List.map_cons, List.cons_append, headGap, joinHead, hcg, gapOf_nil, joinGap_none]
    rw [hnew]
    exact .cut (by simp [piecesToks, Swap.cut, h1]) (by simpa [piecesToks, Swap.cut] using h2) this

end Jarl

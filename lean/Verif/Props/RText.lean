import Verif.Lemmas.RLex
import Verif.Props.RTogether
import Verif.Props.Fix
/-!
# C66: fixing the text of a file
-/
namespace Jarl
open Spec

/-! ### Lemmas -/

/-- Text with blanks where they are needed reads as its tokens, if these are R code. -/
theorem lex_of_parses {src : Src} {p : Node} (h : ∀ p ∈ src.pieces, gapOk false p.gap = true ∧ Good p.k) (ha : Airy none src.pieces) (ht : TailOk src.tail) (hp : Parses src.toks p) :
    lex src.text = some src := by
  have hs : Steps .semi (toks p ++ []) := (steps_expr p .top hp.2.1).2.2 hp.1 _ _ trivial (fun _ k hk => allowed_start trivial hk) (fun _ _ => trivial)
  have hb : Bal [] (toks p ++ []) := bal_toks p [] [] trivial
  rw [List.append_nil, hp.2.2] at hs hb
  have hlen : ∀ ps : List Piece, (∀ p ∈ ps, gapOk false p.gap = true ∧ Good p.k) → ps.length ≤ (piecesText ps).length := by
    intro ps
    induction ps with
    | nil => intro _; simp
    | cons q ps ih =>
      intro h
      have := ih fun p hp => h p (List.mem_cons_of_mem _ hp)
      obtain ⟨c, s, e, _⟩ := good_head (h q (List.mem_cons_self ..)).2
      simp only [piecesText, e, List.length_append, List.length_cons]
      omega
  refine lexN_pieces src.pieces _ [] src.tail none ?_ h ha ?_ hb ht
  · have := hlen _ h
    simp only [Src.text, List.length_append]
    omega
  · intro q qs e
    have : src.toks = ⟨gapOf q.gap, q.k⟩ :: piecesToks qs := by simp [Src.toks, e, piecesToks]
    rw [this] at hs
    exact hs.2

/-- The last token. -/
def lastK (prev : Option TK) (ps : List Piece) : Option TK := ((ps.getLast?.map (·.k)).or prev)

theorem lastK_cons (prev : Option TK) (p : Piece) (ps : List Piece) : lastK prev (p :: ps) = lastK (some p.k) ps := by
  simp only [lastK, List.getLast?_cons]
  cases ps.getLast? <;> simp

theorem airy_append {prev : Option TK} {a b : List Piece} : Airy prev (a ++ b) ↔ Airy prev a ∧ Airy (lastK prev a) b := by
  induction a generalizing prev with
  | nil => simp [Airy, lastK]
  | cons p a ih => simp only [List.cons_append, Airy, ih, lastK_cons, and_assoc]

theorem airy_end {prev : Option TK} {y : TK} {ps : List Piece} (h : Airy prev ps) (hy : endK y = true) : Airy (some y) ps := by
  cases ps with
  | nil => trivial
  | cons p ps =>
    refine ⟨fun hg => ?_, h.2⟩
    obtain ⟨_, _, _, _, a5, a6⟩ := h.1 hg
    refine ⟨?_, ?_, ?_, ?_, a5, a6⟩ <;> (intro e; cases e; cases hy)

/-- A new piece of text: there are blanks where they are needed, and it begins and ends like an expression. -/
def NewText (ps : List Piece) : Prop :=
  (∀ p ∈ ps, gapOk false p.gap = true ∧ Good p.k) ∧ Airy none ps ∧ ∃ c cs y, ps = c :: cs ∧ startK c.k = true ∧ lastK (some c.k) cs = some y ∧ endK y = true

theorem airy_swapped {i qs ws out} (h : Swapped i qs ws out) : ∀ {prev}, Airy prev qs → (∀ w ∈ ws, NewText w.new) → Airy prev out := by
  induction h with
  | done => intro prev h _; exact h
  | @swap i keep p old rest w ws c cs out h1 h2 hc _ ih =>
    intro prev ha hw
    obtain ⟨_, hna, c', cs', y, hc', hst, hl, he⟩ := hw w (List.mem_cons_self ..)
    rw [hc] at hc'
    cases hc'
    rw [hc] at hna
    rw [List.append_assoc] at ha ⊢
    obtain ⟨ha1, ha2⟩ := airy_append.mp ha
    obtain ⟨ha3, ha4⟩ := airy_append.mp ha2
    refine airy_append.mpr ⟨ha1, airy_append.mpr ⟨⟨fun hg => ?_, hna.2⟩, ?_⟩⟩
    · obtain ⟨a1, a2, a3, a4, _, _⟩ := ha3.1 hg
      refine ⟨a1, a2, a3, a4, ?_, ?_⟩ <;> (intro e; simp only at e; rw [e] at hst; cases hst)
    · rw [lastK_cons]
      show Airy (lastK (some c.k) cs) out
      rw [hl]
      exact ih (airy_end ha4 he) (fun w hm => hw w (List.mem_cons_of_mem _ hm))

theorem all_swapped {i qs ws out} (h : Swapped i qs ws out) (hq : ∀ p ∈ qs, gapOk false p.gap = true ∧ Good p.k) (hw : ∀ w ∈ ws, NewText w.new) :
    ∀ p ∈ out, gapOk false p.gap = true ∧ Good p.k := by
  induction h with
  | done => exact hq
  | @swap i keep p old rest w ws c cs out h1 h2 hc _ ih =>
    have hn := (hw w (List.mem_cons_self ..)).1
    rw [hc] at hn
    intro q hm
    simp only [List.mem_append, List.mem_cons] at hm
    rcases hm with (hm | rfl | hm) | hm
    · exact hq q (by simp [hm])
    · exact ⟨(hq p (by simp)).1, (hn c (by simp)).2⟩
    · exact hn q (by simp [hm])
    · exact ih (fun p hp => hq p (by simp only [List.mem_append]; exact .inr hp)) (fun w hm => hw w (List.mem_cons_of_mem _ hm)) q hm

/-- How expressions begin and end. -/
theorem expr_ends (n : Node) : ∀ md, isExpr n = true → WF md n → (∃ t ts, toks n = t :: ts ∧ startK t.k = true) ∧ (∃ ts t, toks n = ts ++ [t] ∧ endK t.k = true) := by
  induction n with
  | atom g k s => intro md _ _; exact ⟨⟨_, _, rfl, rfl⟩, ⟨[], _, rfl, rfl⟩⟩
  | paren g e g2 _ => intro md _ _; exact ⟨⟨_, _, rfl, rfl⟩, ⟨_, _, rfl, rfl⟩⟩
  | braces g e g2 _ => intro md _ _; exact ⟨⟨_, _, rfl, rfl⟩, ⟨_, _, rfl, rfl⟩⟩
  | un g o e ih =>
    intro md _ hw
    obtain ⟨k, hk, _⟩ := hw.2.2
    obtain ⟨_, ts, t, h, ht⟩ := ih md hw.1 hw.2.1
    exact ⟨⟨_, _, rfl, by simp [startK, hk]⟩, ⟨_ :: ts, t, by rw [toks, h]; rfl, ht⟩⟩
  | bin l g o r ihl ihr =>
    intro md _ hw
    obtain ⟨hl, hr, wl, wr, _⟩ := hw
    obtain ⟨⟨t, ts, h, ht⟩, _⟩ := ihl md hl wl
    obtain ⟨_, ts', t', h', ht'⟩ := ihr md hr wr
    exact ⟨⟨t, _, by rw [toks, h]; rfl, ht⟩, ⟨toks l ++ ⟨g, .op o⟩ :: ts', t', by rw [toks, h']; simp, ht'⟩⟩
  | ext l g sl g2 k s ih =>
    intro md _ hw
    obtain ⟨hl, wl, _⟩ := hw
    obtain ⟨⟨t, ts, h, ht⟩, _⟩ := ih md hl wl
    exact ⟨⟨t, _, by rw [toks, h]; rfl, ht⟩, ⟨toks l ++ [_], ⟨g2, .atom k s⟩, by rw [toks, List.append_assoc]; rfl, rfl⟩⟩
  | call f g b args g2 ihf _ =>
    intro md _ hw
    obtain ⟨hl, wl, _⟩ := hw
    obtain ⟨⟨t, ts, h, ht⟩, _⟩ := ihf md hl wl
    exact ⟨⟨t, _, by rw [toks, h]; rfl, ht⟩, ⟨_, _, rfl, rfl⟩⟩
  | func g la g2 params g3 body _ ihb =>
    intro md _ hw
    obtain ⟨_, _, _, hb, wb, _⟩ := hw
    obtain ⟨_, ts, t, h, ht⟩ := ihb md hb wb
    exact ⟨⟨_, _, rfl, rfl⟩, ⟨⟨g, .fn la⟩ :: ⟨g2, .open .par⟩ :: toks params ++ ⟨g3, .close .par⟩ :: ts, t, by rw [toks, h]; simp, ht⟩⟩
  | ifE g g2 c g3 t _ ihb =>
    intro md _ hw
    obtain ⟨_, _, _, hb, wb, _⟩ := hw
    obtain ⟨_, ts, t', h, ht⟩ := ihb md hb wb
    exact ⟨⟨_, _, rfl, rfl⟩, ⟨⟨g, .if⟩ :: ⟨g2, .open .par⟩ :: toks c ++ ⟨g3, .close .par⟩ :: ts, t', by rw [toks, h]; simp, ht⟩⟩
  | ifElse g g2 c g3 t g4 e _ _ ihb =>
    intro md _ hw
    obtain ⟨_, _, _, _, _, _, _, _, hb, wb, _⟩ := hw
    obtain ⟨_, ts, t', h, ht⟩ := ihb md hb wb
    exact ⟨⟨_, _, rfl, rfl⟩, ⟨⟨g, .if⟩ :: ⟨g2, .open .par⟩ :: toks c ++ ⟨g3, .close .par⟩ :: toks t ++ ⟨g4, .else⟩ :: ts, t', by rw [toks, h]; simp, ht⟩⟩
  | whileE g g2 c g3 b _ ihb =>
    intro md _ hw
    obtain ⟨_, _, _, hb, wb, _⟩ := hw
    obtain ⟨_, ts, t', h, ht⟩ := ihb md hb wb
    exact ⟨⟨_, _, rfl, rfl⟩, ⟨⟨g, .while⟩ :: ⟨g2, .open .par⟩ :: toks c ++ ⟨g3, .close .par⟩ :: ts, t', by rw [toks, h]; simp, ht⟩⟩
  | forE g g2 gv v gi seq g3 b _ ihb =>
    intro md _ hw
    obtain ⟨_, _, _, hb, wb, _⟩ := hw
    obtain ⟨_, ts, t', h, ht⟩ := ihb md hb wb
    exact ⟨⟨_, _, rfl, rfl⟩, ⟨⟨g, .for⟩ :: ⟨g2, .open .par⟩ :: ⟨gv, .atom .id v⟩ :: ⟨gi, .in⟩ :: toks seq ++ ⟨g3, .close .par⟩ :: ts, t', by rw [toks, h]; simp, ht⟩⟩
  | repE g b ih =>
    intro md _ hw
    obtain ⟨_, ts, t, h, ht⟩ := ih md hw.1 hw.2.1
    exact ⟨⟨_, _, rfl, rfl⟩, ⟨_ :: ts, t, by rw [toks, h]; rfl, ht⟩⟩
  | _ => intro md h; cases h

theorem lastK_toks {c : Piece} {cs : List Piece} {ts : List Tok} {t : Tok} (h : piecesToks (c :: cs) = ts ++ [t]) : lastK (some c.k) cs = some t.k := by
  rw [← lastK_cons none]
  have h2 := congrArg List.getLast? h
  rw [List.getLast?_append] at h2
  simp only [piecesToks, List.getLast?_map, List.getLast?_singleton, Option.some_or] at h2
  obtain ⟨x, hx, hy⟩ := Option.map_eq_some_iff.mp h2
  simp [lastK, hx, ← hy]

/-- The text of a good fix. -/
theorem newText_of {p : Node} {ed : Edit} {content : Str} {cs : List Piece} (hg : GoodFix p ed) (hs : Spells content ed.content cs) (ha : Airy none cs) : NewText cs := by
  obtain ⟨_, _, e', he', ht, hp⟩ := hg
  have hw := WF_plug hp.2.1
  obtain ⟨hl, hc2, ⟨c, rest, rfl, hcg⟩⟩ := hs
  refine ⟨(lexN_inv _ _ _ _ hl).2.1, ha, ?_⟩
  have hk : ∀ (g : Gap) (t : Tok) (ts : List Tok), joinHead g (t :: ts) = { t with gap := joinGap g t.gap } :: ts := fun _ _ _ => rfl
  rw [← hc2] at ht
  have e0 : piecesToks (c :: rest) = ⟨gapOf c.gap, c.k⟩ :: piecesToks rest := rfl
  rw [e0, hk] at ht
  obtain ⟨⟨t, ts, h1, h2⟩, ts', t', h3, h4⟩ := expr_ends e' _ he' hw
  rw [h1] at ht
  simp only [List.cons.injEq] at ht
  rw [ht.1] at h2
  refine ⟨c, rest, t'.k, rfl, h2, ?_, h4⟩
  rw [h1, ht.2] at h3
  cases ts' with
  | nil =>
    simp only [List.nil_append, List.cons.injEq] at h3
    have : rest = [] := by have := h3.2; simpa [piecesToks] using this
    subst this
    simp [lastK, ← h3.1, ht.1]
  | cons u us =>
    simp only [List.cons_append, List.cons.injEq] at h3
    exact lastK_toks (ts := ⟨gapOf c.gap, c.k⟩ :: us) (by rw [e0, h3.2]; rfl)

/-! ### C66 -/

/-- If each of the fixes alone keeps the structure of the program, then R reads the text after all of them, carried out as byte ranges of the file, as the old program with the replaced
expressions exchanged. -/
theorem C66_text (text : Str) (src : Src) (p : Node) (eds : List (Edit × Str)) (out : Str) (hr : ReadsAs text src p) (ha : Airy none src.pieces)
    (hg : ∀ e ∈ eds, GoodFix p e.1 ∧ ∃ cs, Spells e.2 e.1.content cs ∧ Airy none cs)
    (h : Rewritten 0 text (eds.map fun e => textFix src e.1 e.2) out) :
    ∃ src' q, ReadsAs out src' q ∧ Airy none src'.pieces ∧ src'.tail = src.tail ∧ Together (eds.map (·.1)) p q ∧ Patched 0 src.toks ((eds.map (·.1)).map cutOf) src'.toks := by
  obtain ⟨hlex, hp⟩ := hr
  obtain ⟨htext, hl, htl⟩ := lexN_inv _ _ _ _ hlex
  have hch : ∀ e : Edit × Str, ∃ cs, e ∈ eds → Spells e.2 e.1.content cs ∧ Airy none cs := by
    intro e
    by_cases he : e ∈ eds
    · obtain ⟨cs, hcs⟩ := (hg e he).2; exact ⟨cs, fun _ => hcs⟩
    · exact ⟨[], fun h => absurd h he⟩
  obtain ⟨f, hf⟩ := Classical.axiomOfChoice hch
  let sw : Edit × Str → Swap := fun e => ⟨(beforeToks e.1.z.fs).length, (beforeToks e.1.z.fs).length + (toks e.1.z.e).length, f e⟩
  have hfix : eds.map (fun e => textFix src e.1 e.2) = (eds.map fun e => (sw e, e.1.skip)).map fun w => w.1.fix src.pieces w.2 := by
    rw [List.map_map]
    refine List.map_congr_left fun e he => ?_
    have := (lexN_inv _ _ _ _ ((hf e he).1).1).1
    simp only [Src.text, List.append_nil] at this
    simp only [textFix, Function.comp, Swap.fix, sw, this]
  have hplace : ∀ e ∈ eds, src.toks = beforeToks e.1.z.fs ++ toks e.1.z.e ++ afterToks e.1.z.fs ∧ toks e.1.z.e ≠ [] := by
    intro e he
    obtain ⟨hpe, hie, e', _, _, hp'⟩ := (hg e he).1
    refine ⟨by rw [← toks_plug, ← hp.2.2, ← hpe]; rfl, ?_⟩
    have hw : WF .top (plug e.1.z.fs e.1.z.e) := by
      have := hp.2.1; rw [← hpe] at this; exact this
    exact expr_toks hie (WF_plug hw)
  have hlen : src.pieces.length = src.toks.length := by simp [Src.toks, piecesToks]
  have hwf : ∀ e ∈ eds, (sw e).i < (sw e).j ∧ (sw e).j ≤ src.pieces.length ∧ ∃ c cs, (sw e).new = c :: cs ∧ c.gap = [] := by
    intro e he
    obtain ⟨h1, h2⟩ := hplace e he
    have h3 : 0 < (toks e.1.z.e).length := List.length_pos_iff.mpr h2
    have h4 := congrArg List.length h1
    simp only [List.length_append] at h4
    refine ⟨by simp only [sw]; omega, by simp only [sw]; omega, ?_⟩
    exact ((hf e he).1).2.2
  obtain ⟨ps', ho, hsw⟩ := swapped_of_rewritten src.pieces src.tail (fun p hp => by obtain ⟨c, s, e, _⟩ := good_head (hl p hp).2; rw [e]; simp) (eds.map fun e => (sw e, e.1.skip)) 0 out (Nat.zero_le _)
    (by intro w hw; obtain ⟨e, he, rfl⟩ := List.mem_map.mp hw; exact hwf e he)
    (by rw [← hfix]; rw [← htext] at h; simpa [piecesText, blen, Src.text] using h)
  rw [List.map_map] at hsw
  replace hsw : Swapped 0 src.pieces (eds.map sw) ps' := hsw
  have hpt := patched_of_swapped src.pieces hsw rfl (Nat.zero_le _) (by
    intro w hw; obtain ⟨e, he, rfl⟩ := List.mem_map.mp hw; exact (hwf e he).2.2)
  have hcut : (eds.map sw).map (·.cut src.pieces) = (eds.map (·.1)).map cutOf := by
    rw [List.map_map, List.map_map]
    refine List.map_congr_left fun e he => ?_
    obtain ⟨h1, h2⟩ := hplace e he
    have hd : piecesToks (src.pieces.drop (beforeToks e.1.z.fs).length) = toks e.1.z.e ++ afterToks e.1.z.fs := by
      rw [piecesToks, List.map_drop]
      show List.drop _ src.toks = _
      rw [h1, List.append_assoc, List.drop_left' rfl]
    simp only [Function.comp, Swap.cut, cutOf, sw, hd, headGap_append h2, ((hf e he).1).2.1]
  rw [hcut] at hpt
  obtain ⟨q, hq, htog⟩ := C57_fixes_together p src.toks (piecesToks ps') (eds.map Prod.fst) hp
    (by intro ed hed; obtain ⟨e, he, rfl⟩ := List.mem_map.mp hed; exact (hg e he).1) hpt
  have hnew : ∀ w ∈ eds.map sw, NewText w.new := by
    intro w hw
    obtain ⟨e, he, rfl⟩ := List.mem_map.mp hw
    exact newText_of (hg e he).1 (hf e he).1 (hf e he).2
  have hair := airy_swapped hsw ha hnew
  have hall := all_swapped hsw hl hnew
  refine ⟨⟨ps', src.tail⟩, q, ⟨?_, hq⟩, hair, rfl, htog, hpt⟩
  rw [ho]
  exact lex_of_parses (src := ⟨ps', src.tail⟩) hall hair htl hq

end Jarl

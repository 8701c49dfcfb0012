import Verif.Spec.Rmd
/-!
# C14: R chunks of R Markdown and Quarto documents
-/
namespace Jarl
open Spec

theorem blen_flatten_append (a b : List Str) : blen (a ++ b).flatten = blen a.flatten + blen b.flatten := by
  simp

theorem dropWhile_append_stop {p : Char → Bool} {a : Str} {c : Char} {b : Str}
    (ha : ∀ x ∈ a, p x = true) (hc : p c = false) : (a ++ c :: b).dropWhile p = c :: b := by
  induction a with
  | nil => simp [hc]
  | cons x a ih =>
    rw [List.cons_append, List.dropWhile_cons_of_pos (ha x (by simp))]
    exact ih (fun y hy => ha y (by simp [hy]))

theorem takeWhile_append_stop {p : Char → Bool} {a : Str} {c : Char} {b : Str}
    (ha : ∀ x ∈ a, p x = true) (hc : p c = false) : (a ++ c :: b).takeWhile p = a := by
  induction a with
  | nil => simp [hc]
  | cons x a ih =>
    rw [List.cons_append, List.takeWhile_cons_of_pos (ha x (by simp)), ih (fun y hy => ha y (by simp [hy]))]

theorem mem_takeWhile_imp {p : Char → Bool} {s : Str} {c : Char} (h : c ∈ s.takeWhile p) : p c = true := by
  induction s with
  | nil => simp at h
  | cons d s ih =>
    rw [List.takeWhile_cons] at h
    split at h
    · rcases List.mem_cons.mp h with rfl | h
      · assumption
      · exact ih h
    · simp at h

/-- The opening-fence test accepts exactly the lines of the documented form. -/
theorem openFence_iff {line fence : Str} : openFence line = some fence ↔ OpensChunk line fence := by
  unfold openFence
  constructor
  · intro h
    simp only at h
    split at h
    · rename_i hlen
      split at h
      · rename_i c opts heq
        split at h
        · rename_i hc
          cases h
          simp only [Bool.and_eq_true, Bool.or_eq_true, decide_eq_true_eq] at hc
          obtain ⟨hr, hmem⟩ := hc
          obtain ⟨o1, o2, ho⟩ := List.append_of_mem (by simpa using hmem)
          refine ⟨line.takeWhile (fun c => c = ' ' || c = '\t'), c, o1, o2, ?_, ?_, ?_, hlen, hr⟩
          · have e1 := (List.takeWhile_append_dropWhile (p := fun c => c = ' ' || c = '\t') (l := line)).symm
            have e2 := (List.takeWhile_append_dropWhile (p := fun c => decide (c = '`'))
              (l := line.dropWhile (fun c => c = ' ' || c = '\t'))).symm
            rw [heq, ho] at e2
            conv => lhs; rw [e1, e2]
            simp
          · intro x hx
            have := mem_takeWhile_imp hx
            simpa using this
          · intro x hx
            have := mem_takeWhile_imp hx
            simpa using this
        · cases h
      · cases h
    · cases h
  · rintro ⟨indent, r, opts, rest, rfl, hi, hf, hl, hr⟩
    obtain ⟨f0, fs, rfl⟩ : ∃ f0 fs, fence = f0 :: fs := by
      cases fence with
      | nil => simp at hl
      | cons a b => exact ⟨a, b, rfl⟩
    have hf0 : f0 = '`' := hf f0 (by simp)
    have e1 : (indent ++ (f0 :: fs) ++ '{' :: r :: opts ++ '}' :: rest).dropWhile
        (fun c => c = ' ' || c = '\t') = (f0 :: fs) ++ '{' :: (r :: opts ++ '}' :: rest) := by
      rw [List.append_assoc, List.append_assoc, List.cons_append]
      rw [dropWhile_append_stop]
      · simp
      · intro x hx; simpa using hi x hx
      · subst hf0; decide
    simp only [e1]
    rw [takeWhile_append_stop (by intro x hx; simpa using hf x hx) (by decide),
      dropWhile_append_stop (by intro x hx; simpa using hf x hx) (by decide)]
    rw [if_pos hl]
    simp only [List.cons_append]
    rw [if_pos]
    simp only [Bool.and_eq_true, Bool.or_eq_true, decide_eq_true_eq]
    exact ⟨hr, by simp⟩

/-- Inside an open chunk: either the rest holds a first closing line, or nothing is produced. -/
theorem extractLoop_open (fence : Str) (start : Nat) : ∀ (lines : List Str) (offset : Nat) (code : Str),
    (∃ body closing post, lines = body ++ closing :: post ∧ (∀ l ∈ body, trim l ≠ fence) ∧ trim closing = fence ∧
      extractLoop offset (some (fence, code, start)) lines =
        ⟨code ++ body.flatten, start⟩ :: extractLoop (offset + blen (body ++ [closing]).flatten) none post) ∨
    ((∀ l ∈ lines, trim l ≠ fence) ∧ extractLoop offset (some (fence, code, start)) lines = [])
  | [], _, _ => .inr ⟨by simp, rfl⟩
  | line :: lines, offset, code => by
    by_cases h : trim line = fence
    · refine .inl ⟨[], line, lines, rfl, by simp, h, ?_⟩
      simp only [extractLoop, if_pos h]
      simp
    · rcases extractLoop_open fence start lines (offset + blen line) (code ++ line) with
        ⟨body, closing, post, h1, h2, h3, h4⟩ | ⟨h1, h2⟩
      · refine .inl ⟨line :: body, closing, post, by simp [h1], ?_, h3, ?_⟩
        · intro l hl
          rcases List.mem_cons.mp hl with rfl | hl
          · exact h
          · exact h2 l hl
        · simp only [extractLoop, if_neg h]
          rw [h4]
          simp [Nat.add_assoc]
      · refine .inr ⟨?_, ?_⟩
        · intro l hl
          rcases List.mem_cons.mp hl with rfl | hl
          · exact h
          · exact h1 l hl
        · simp only [extractLoop, if_neg h]
          exact h2

theorem extractLoop_chunks : ∀ (n : Nat) (lines : List Str) (offset : Nat), lines.length ≤ n →
    Chunks offset lines (extractLoop offset none lines)
  | _, [], _, _ => .nil
  | 0, _ :: _, _, h => by simp at h
  | n + 1, line :: lines, offset, h => by
    simp only [List.length_cons] at h
    unfold extractLoop
    cases hf : openFence line with
    | none =>
      simp only
      refine .text ?_ (extractLoop_chunks n lines _ (by omega))
      rintro ⟨f, hf'⟩
      rw [openFence_iff.mpr hf'] at hf
      cases hf
    | some fence =>
      simp only
      have ho := openFence_iff.mp hf
      rcases extractLoop_open fence (offset + blen line) lines (offset + blen line) [] with
        ⟨body, closing, post, h1, h2, h3, h4⟩ | ⟨h1, h2⟩
      · rw [h4, h1]
        have hl : post.length ≤ n := by
          have := congrArg List.length h1
          simp at this; omega
        have := Chunks.chunk (offset := offset) (cs := extractLoop (offset + blen (line :: body ++ [closing]).flatten) none post)
          ho h3 h2 (extractLoop_chunks n post _ hl)
        simpa [Nat.add_assoc] using this
      · rw [h2]
        exact .unclosed ho h1

/-- **C14 (all chunks, in order).** The extracted chunks are precisely the chunks of the document, read from top to
bottom. -/
theorem C14_chunks (content : Str) : Chunks 0 (splitInclusive '\n' content) (extractRChunks content) :=
  extractLoop_chunks _ _ _ (Nat.le_refl _)

theorem OpensChunk_unique {l f g : Str} (h : OpensChunk l f) (h' : OpensChunk l g) : f = g := by
  have := (openFence_iff.mpr h).symm.trans (openFence_iff.mpr h')
  exact Option.some.inj this

theorem append_first_unique {α} {p : α → Prop} {a b c d : List α} {x y : α}
    (h : a ++ x :: b = c ++ y :: d) (ha : ∀ z ∈ a, ¬ p z) (hc : ∀ z ∈ c, ¬ p z) (hx : p x) (hy : p y) :
    a = c ∧ x = y ∧ b = d := by
  induction a generalizing c with
  | nil =>
    cases c with
    | nil => simpa using h
    | cons z c => simp at h; exact absurd (h.1 ▸ hx) (hc z (by simp))
  | cons z a ih =>
    cases c with
    | nil => simp at h; exact absurd (h.1.symm ▸ hy) (ha z (by simp))
    | cons w c =>
      simp at h
      have := ih h.2 (fun u hu => ha u (by simp [hu])) (fun u hu => hc u (by simp [hu]))
      exact ⟨by rw [h.1, this.1], this.2⟩

/-- The specification determines the chunks. -/
theorem Chunks_unique {o : Nat} {ls : List Str} {a b : List RChunk} (h : Chunks o ls a) (h' : Chunks o ls b) :
    a = b := by
  induction h generalizing b with
  | nil => cases h'; rfl
  | text hn _ ih =>
    cases h' with
    | text _ h2 => exact ih h2
    | chunk h2 => exact absurd ⟨_, h2⟩ hn
    | unclosed h2 => exact absurd ⟨_, h2⟩ hn
  | @chunk o' op f body cl post cs ho hcl hb _ ih =>
    generalize hL : op :: body ++ cl :: post = L at h'
    cases h' with
    | nil => simp at hL
    | text hn => cases hL; exact absurd ⟨_, ho⟩ hn
    | @chunk _ op2 f2 body2 cl2 post2 cs2 ho2 hcl2 hb2 hrest =>
      simp only [List.cons_append, List.cons.injEq] at hL
      obtain ⟨rfl, hL⟩ := hL
      cases OpensChunk_unique ho ho2
      obtain ⟨rfl, rfl, rfl⟩ := append_first_unique (p := fun l => trim l = f) hL hb hb2 hcl hcl2
      rw [ih hrest]
    | unclosed ho2 hb2 =>
      simp only [List.cons_append, List.cons.injEq] at hL
      obtain ⟨rfl, rfl⟩ := hL
      cases OpensChunk_unique ho ho2
      exact absurd hcl (hb2 cl (by simp))
  | @unclosed o' op f body ho hb =>
    generalize hL : op :: body = L at h'
    cases h' with
    | nil => simp at hL
    | text hn => cases hL; exact absurd ⟨_, ho⟩ hn
    | chunk ho2 hcl2 hb2 hrest =>
      simp only [List.cons_append, List.cons.injEq] at hL
      obtain ⟨rfl, rfl⟩ := hL
      cases OpensChunk_unique ho ho2
      exact absurd hcl2 (hb _ (by simp))
    | unclosed => rfl

theorem Chunks_ge {o : Nat} {ls : List Str} {cs : List RChunk} (h : Chunks o ls cs) :
    ∀ c ∈ cs, o ≤ c.startByte := by
  induction h with
  | nil => simp
  | text _ _ ih => intro c hc; have := ih c hc; omega
  | chunk _ _ _ _ ih =>
    intro c hc
    rcases List.mem_cons.mp hc with rfl | hc
    · simp
    · have := ih c hc; omega
  | unclosed => simp

theorem Chunks_at {o : Nat} {ls : List Str} {cs : List RChunk} (h : Chunks o ls cs) (pre : List Str)
    (ho : o = blen pre.flatten) : ∀ c ∈ cs, ChunkAt (pre ++ ls) c := by
  induction h generalizing pre with
  | nil => simp
  | @text o l ls cs _ _ ih =>
    intro c hc
    have := ih (pre ++ [l]) (by simp [ho]) c hc
    simpa using this
  | @chunk o op f body cl post cs hop hcl hb _ ih =>
    intro c hc
    rcases List.mem_cons.mp hc with rfl | hc
    · exact ⟨pre, op, f, body, cl, post, by simp, hop, hcl, hb, rfl, by simp [ho]⟩
    · have := ih (pre ++ (op :: body ++ [cl])) (by simp [ho]) c hc
      simpa using this
  | unclosed => simp

/-- **C14 (each chunk).** Every extracted chunk consists of the whole lines strictly between an opening line and the
first following closing line. -/
theorem C14_chunk_lines (content : Str) (c : RChunk) (hc : c ∈ extractRChunks content) :
    ChunkAt (splitInclusive '\n' content) c := by
  have := Chunks_at (C14_chunks content) [] rfl c hc
  simpa using this

/-- **C14 (slice).** The chunk's code is the slice of the document at its start offset. -/
theorem C14_slice (content : Str) (c : RChunk) (hc : c ∈ extractRChunks content) :
    slice c.startByte (c.startByte + blen c.code) content = some c.code := by
  obtain ⟨pre, op, f, body, cl, post, hl, _, _, _, hcode, hstart⟩ := C14_chunk_lines content c hc
  rw [slice_iff]
  refine ⟨(pre ++ [op]).flatten, (cl :: post).flatten, ?_, hstart.symm, rfl⟩
  rw [← splitInclusive_flatten '\n' content, hl, hcode]
  simp

/-- **C14 (disjoint).** Chunks come in document order and a chunk ends before the next one starts (with at least the
closing and the opening fence in between). -/
theorem C14_disjoint (content : Str) :
    (extractRChunks content).Pairwise (fun a b => a.startByte + blen a.code < b.startByte) := by
  have : ∀ o ls cs, Chunks o ls cs → cs.Pairwise (fun a b => a.startByte + blen a.code < b.startByte) := by
    intro o ls cs h
    induction h with
    | nil => exact .nil
    | text _ _ ih => exact ih
    | @chunk o op f body cl post cs hop hcl hb hrest ih =>
      refine .cons ?_ ih
      intro b hb'
      have h1 := Chunks_ge hrest b hb'
      have h2 : 0 < blen cl := by
        obtain ⟨_, _, _, _, _, _, _, hlen, _⟩ := hop
        cases cl with
        | nil =>
          rw [show trim [] = [] from rfl] at hcl
          rw [← hcl] at hlen
          simp at hlen
        | cons d ds => have := d.utf8Size_pos; simp; omega
      simp at h1 ⊢
      omega
    | unclosed => exact .nil
  exact this _ _ _ (C14_chunks content)

/-! Concrete cases (tests). -/

example : extractRChunks (cs! "# é\n```{r a}\nx\ny\n```\n```r\nz\n```\n  ````{R}\n```\n````") =
    [⟨cs! "x\ny\n", 14⟩, ⟨cs! "```\n", 43⟩] := by decide +kernel
example : extractRChunks (cs! "```{r}\nx\n") = [] := by decide +kernel
example : OpensChunk (cs! " ```{r, eval=FALSE}  \n") (cs! "```") :=
  ⟨cs! " ", 'r', cs! ", eval=FALSE", cs! "  \n", rfl, by decide, by decide, by decide, .inl rfl⟩

end Jarl

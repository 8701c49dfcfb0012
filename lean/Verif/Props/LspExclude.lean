import Verif.Spec.LspExclude
/-!
# C43: the files the language server leaves out
-/
namespace Jarl
open Spec

/-! ### Suffixes and first occurrences -/

theorem endsWith_iff {suf s : Str} : endsWith suf s = true ↔ ∃ r, s = r ++ suf := by
  unfold endsWith
  rw [startsWith_iff]
  constructor
  · rintro ⟨r, h⟩
    refine ⟨r.reverse, ?_⟩
    have := congrArg List.reverse h
    simpa using this
  · rintro ⟨r, rfl⟩; exact ⟨r.reverse, by simp⟩

theorem findSub_some {n s a b : Str} (h : findSub n s = some (a, b)) : s = a ++ n ++ b := by
  induction s generalizing a b with
  | nil =>
    simp only [findSub] at h
    split at h
    · rename_i hn; cases h; simp [hn]
    · cases h
  | cons c cs ih =>
    simp only [findSub] at h
    split at h
    · rename_i r hr; cases h; simpa using stripPrefix_iff.1 hr
    · split at h
      · rename_i a' b' h'
        cases h
        simp [ih h']
      · cases h

/-- The first occurrence leaves the longest rest. -/
theorem findSub_first {n s g r : Str} (h : s = g ++ n ++ r) :
    ∃ a b, findSub n s = some (a, b) ∧ ∃ t, b = t ++ r := by
  induction s generalizing g with
  | nil =>
    have h' : g = [] ∧ n = [] ∧ r = [] := by
      have := congrArg List.length h
      simp at this
      refine ⟨List.eq_nil_of_length_eq_zero (by omega), List.eq_nil_of_length_eq_zero (by omega),
        List.eq_nil_of_length_eq_zero (by omega)⟩
    obtain ⟨rfl, rfl, rfl⟩ := h'
    exact ⟨[], [], by simp [findSub], [], rfl⟩
  | cons c cs ih =>
    simp only [findSub]
    cases hs : stripPrefix n (c :: cs) with
    | some b =>
      refine ⟨[], b, rfl, ?_⟩
      have h1 := stripPrefix_iff.1 hs
      cases g with
      | nil =>
        simp only [List.nil_append] at h
        rw [h] at h1
        exact ⟨[], by simpa using (List.append_cancel_left h1).symm⟩
      | cons d g =>
        -- both are suffixes of the same list, `b` is the longer one
        have hlen : r.length ≤ b.length := by
          have e1 := congrArg List.length h
          have e2 := congrArg List.length h1
          simp at e1 e2; omega
        have h3 : (d :: g ++ n) ++ r = n ++ b := by rw [← h, h1]
        rcases List.append_eq_append_iff.1 h3 with ⟨x, e1, e2⟩ | ⟨x, e1, e2⟩
        · have := congrArg List.length e2
          simp at this
          have hx : x = [] := List.eq_nil_of_length_eq_zero (by omega)
          subst hx; exact ⟨[], by simpa using e2.symm⟩
        · exact ⟨x, e2⟩
    | none =>
      cases g with
      | nil =>
        simp only [List.nil_append] at h
        rw [h, stripPrefix_append] at hs; cases hs
      | cons d g =>
        simp only [List.cons_append, List.cons.injEq] at h
        obtain ⟨a, b, h1, t, h2⟩ := ih h.2
        exact ⟨c :: a, b, by rw [h1], t, h2⟩

/-! ### Glob patterns -/

/-- The parts occur in order in the text. -/
def Loose : List Str → Str → Prop
  | [], _ => True
  | p :: ps, s => ∃ g r, s = g ++ p ++ r ∧ Loose ps r

/-- The parts occur in order and the last one ends the text. -/
def Tight : List Str → Str → Prop
  | [], s => s = []
  | p :: ps, s => ∃ g r, s = g ++ p ++ r ∧ Tight ps r

theorem Loose.extend {ps : List Str} {s : Str} (t : Str) (h : Loose ps s) : Loose ps (t ++ s) := by
  cases ps with
  | nil => trivial
  | cons p ps =>
    obtain ⟨g, r, rfl, h⟩ := h
    exact ⟨t ++ g, r, by simp, h⟩

theorem partsInOrder_iff {ps : List Str} {s : Str} : partsInOrder ps s = true ↔ Loose ps s := by
  induction ps generalizing s with
  | nil => simp [partsInOrder, Loose]
  | cons p ps ih =>
    simp only [partsInOrder]
    constructor
    · intro h
      cases hf : findSub p s with
      | none => rw [hf] at h; cases h
      | some ab =>
        obtain ⟨a, b⟩ := ab
        rw [hf] at h
        exact ⟨a, b, findSub_some hf, ih.1 h⟩
    · rintro ⟨g, r, h1, h2⟩
      obtain ⟨a, b, hf, t, rfl⟩ := findSub_first h1
      rw [hf]
      exact ih.2 (h2.extend t)

theorem Tight.loose {ps : List Str} {s : Str} (h : Tight ps s) : Loose ps s := by
  induction ps generalizing s with
  | nil => trivial
  | cons p ps ih => obtain ⟨g, r, h1, h2⟩ := h; exact ⟨g, r, h1, ih h2⟩

theorem Tight.suffix {ps : List Str} {s : Str} (hne : ps ≠ []) (h : Tight ps s) :
    ∃ x, s = x ++ ps.getLast?.getD [] := by
  induction ps generalizing s with
  | nil => exact absurd rfl hne
  | cons p ps ih =>
    obtain ⟨g, r, rfl, h2⟩ := h
    cases ps with
    | nil => simp only [Tight] at h2; subst h2; exact ⟨g, by simp⟩
    | cons q ps =>
      obtain ⟨x, rfl⟩ := ih (by simp) h2
      exact ⟨g ++ p ++ x, by simp [List.getLast?_cons_cons]⟩

theorem tight_of_loose {ps : List Str} (hne : ps ≠ []) {s pre x : Str} (h : Loose ps s)
    (hx : pre ++ s = x ++ ps.getLast?.getD []) : Tight ps s := by
  induction ps generalizing s pre with
  | nil => exact absurd rfl hne
  | cons p ps ih =>
    obtain ⟨g, r, rfl, h2⟩ := h
    cases ps with
    | nil =>
      simp only [List.getLast?_singleton, Option.getD_some] at hx
      -- `p` is a suffix of `pre ++ (g ++ p ++ r)` and no longer than `g ++ p ++ r`
      rcases List.append_eq_append_iff.1 hx with ⟨y, e1, e2⟩ | ⟨y, e1, e2⟩
      · exact ⟨y, [], by simpa using e2, rfl⟩
      · have := congrArg List.length e2
        simp at this
        have hy : y = [] := List.eq_nil_of_length_eq_zero (by omega)
        have hg : g = [] := List.eq_nil_of_length_eq_zero (by omega)
        have hr : r = [] := List.eq_nil_of_length_eq_zero (by omega)
        subst hy hg hr
        exact ⟨[], [], by simp, rfl⟩
    | cons q ps =>
      refine ⟨g, r, rfl, ih (by simp) (pre := pre ++ g ++ p) h2 ?_⟩
      rw [List.getLast?_cons_cons] at hx
      rw [← hx]; simp

theorem glob_iff_parts (pat s : Str) :
    Glob pat s ↔ ∃ p0 ps rest, splitOn '*' pat = p0 :: ps ∧ s = p0 ++ rest ∧ Tight ps rest := by
  induction pat generalizing s with
  | nil =>
    simp only [splitOn]
    constructor
    · intro h; cases h; exact ⟨[], [], [], rfl, rfl, rfl⟩
    · rintro ⟨p0, ps, rest, h, rfl, ht⟩
      cases h
      simp only [Tight] at ht; subst ht; exact .nil
  | cons c pat ih =>
    by_cases hc : c = '*'
    · subst hc
      simp only [splitOn, if_true]
      constructor
      · intro h
        cases h with
        | lit h => exact absurd rfl h
        | star g h =>
          obtain ⟨p0, ps, rest, e, rfl, ht⟩ := (ih _).1 h
          exact ⟨[], p0 :: ps, _, by rw [e], rfl, g, rest, by simp, ht⟩
      · rintro ⟨p0, ps, rest, e, rfl, ht⟩
        obtain ⟨rfl, rfl⟩ : p0 = [] ∧ ps = splitOn '*' pat := by
          simpa [eq_comm] using e
        cases hs : splitOn '*' pat with
        | nil => exact absurd hs (splitOn_ne_nil _ _)
        | cons q qs =>
          rw [hs] at ht
          obtain ⟨g, r, rfl, ht⟩ := ht
          have := (ih (q ++ r)).2 ⟨q, qs, r, hs, rfl, ht⟩
          have := Glob.star g this
          simpa using this
    · simp only [splitOn, if_neg hc]
      cases hs : splitOn '*' pat with
      | nil => exact absurd hs (splitOn_ne_nil _ _)
      | cons q qs =>
        constructor
        · intro h
          cases h with
          | lit _ h =>
            obtain ⟨p0, ps, rest, e, rfl, ht⟩ := (ih _).1 h
            rw [hs] at e; cases e
            exact ⟨c :: q, qs, rest, rfl, rfl, ht⟩
          | star => exact absurd rfl hc
        · rintro ⟨p0, ps, rest, e, rfl, ht⟩
          cases e
          exact .lit hc ((ih _).2 ⟨q, qs, rest, hs, rfl, ht⟩)

theorem splitOn_single_iff {c : Char} {s : Str} : (∃ p, splitOn c s = [p]) ↔ c ∉ s := by
  induction s with
  | nil => simp [splitOn]
  | cons d ds ih =>
    simp only [splitOn]
    split
    · rename_i h; subst h
      have := splitOn_ne_nil d ds
      simp [this]
    · rename_i h
      cases hs : splitOn c ds with
      | nil => exact absurd hs (splitOn_ne_nil _ _)
      | cons p ps =>
        rw [hs] at ih
        simp only [List.cons.injEq, List.mem_cons, not_or] at ih ⊢
        constructor
        · rintro ⟨q, _, h2⟩; exact ⟨fun e => h e.symm, ih.1 ⟨p, rfl, h2⟩⟩
        · rintro ⟨_, h2⟩; obtain ⟨_, _, h3⟩ := ih.2 h2; exact ⟨_, rfl, h3⟩

/-- The glob branch accepts exactly the file names the pattern describes. -/
theorem globBranch_iff {pat name : Str} (hs : '*' ∈ pat) : globBranch pat name = true ↔ Glob pat name := by
  rw [glob_iff_parts]
  unfold globBranch
  cases he : splitOn '*' pat with
  | nil => exact absurd he (splitOn_ne_nil _ _)
  | cons p0 ps =>
    have hne : ps ≠ [] := by
      rintro rfl
      exact (splitOn_single_iff.1 ⟨p0, he⟩) hs
    have hlast : (p0 :: ps).getLast?.getD [] = ps.getLast?.getD [] := by
      cases ps with
      | nil => exact absurd rfl hne
      | cons q ps => rw [List.getLast?_cons_cons]
    simp only [hlast]
    cases hp : stripPrefix p0 name with
    | none =>
      simp only [Bool.false_eq_true, false_iff]
      rintro ⟨p0', ps', rest, e, rfl, _⟩
      cases e
      rw [stripPrefix_append] at hp; cases hp
    | some rest =>
      have hname := stripPrefix_iff.1 hp
      simp only
      constructor
      · intro h
        split at h
        · cases h
        · rename_i hcond
          simp only [hne, ne_eq, not_false_eq_true, true_and, Bool.not_eq_false] at hcond
          obtain ⟨x, hx⟩ := endsWith_iff.1 hcond
          refine ⟨p0, ps, rest, rfl, hname, ?_⟩
          exact tight_of_loose hne (partsInOrder_iff.1 h) (by rw [← hname]; exact hx)
      · rintro ⟨p0', ps', rest', e, h1, ht⟩
        cases e
        have : rest' = rest := by
          rw [h1] at hname; exact List.append_cancel_left hname
        subst this
        obtain ⟨x, hx⟩ := ht.suffix hne
        have hend : endsWith (ps.getLast?.getD []) name = true :=
          endsWith_iff.2 ⟨p0 ++ x, by rw [h1, List.append_assoc, ← hx]⟩
        rw [if_neg (by simp [hend])]
        exact partsInOrder_iff.2 ht.loose

/-! ### Components of a path -/

theorem mem_splitOn {c : Char} {d s : Str} : d ∈ splitOn c s ↔
    c ∉ d ∧ ∃ a b, s = a ++ d ++ b ∧ (a = [] ∨ ∃ a', a = a' ++ [c]) ∧ (b = [] ∨ ∃ b', b = c :: b') := by
  -- the first piece, and the pieces after a separator
  have key : ∀ s : Str, ∃ p ps, splitOn c s = p :: ps ∧ c ∉ p ∧
      (∃ b, s = p ++ b ∧ (b = [] ∧ ps = [] ∨ ∃ b', b = c :: b' ∧ ps = splitOn c b')) := by
    intro s
    induction s with
    | nil => exact ⟨[], [], rfl, by simp, [], rfl, .inl ⟨rfl, rfl⟩⟩
    | cons x xs ih =>
      obtain ⟨p, ps, h1, h2, b, h3, h4⟩ := ih
      by_cases hx : x = c
      · subst hx
        refine ⟨[], splitOn x xs, by simp [splitOn], by simp, x :: xs, rfl, .inr ⟨xs, rfl, rfl⟩⟩
      · refine ⟨x :: p, ps, by simp [splitOn, hx, h1], by simp [h2]; exact fun h => hx h.symm, b, by simp [h3], h4⟩
  have : ∀ n (s : Str), s.length = n → (d ∈ splitOn c s ↔
      c ∉ d ∧ ∃ a b, s = a ++ d ++ b ∧ (a = [] ∨ ∃ a', a = a' ++ [c]) ∧ (b = [] ∨ ∃ b', b = c :: b')) := by
    intro n
    induction n using Nat.strongRecOn with
    | _ n ih =>
      intro s hn
      obtain ⟨p, ps, h1, h2, b, h3, h4⟩ := key s
      rw [h1]
      constructor
      · intro h
        rcases List.mem_cons.1 h with rfl | h
        · refine ⟨h2, [], b, by simp [h3], .inl rfl, ?_⟩
          rcases h4 with ⟨h4, _⟩ | ⟨b', h4, _⟩
          · exact .inl h4
          · exact .inr ⟨b', h4⟩
        · rcases h4 with ⟨_, rfl⟩ | ⟨b', rfl, rfl⟩
          · cases h
          · obtain ⟨h5, a, q, h6, h7, h8⟩ := (ih b'.length (by rw [← hn, h3]; simp; omega) b' rfl).1 h
            refine ⟨h5, p ++ c :: a, q, by simp [h3, h6], ?_, h8⟩
            right
            rcases h7 with rfl | ⟨a', rfl⟩
            · exact ⟨p, rfl⟩
            · exact ⟨p ++ c :: a', by simp⟩
      · rintro ⟨hd, a, q, e, ha, hq⟩
        rw [h3, List.append_assoc] at e
        rcases ha with rfl | ⟨a', rfl⟩
        · -- the first piece
          simp only [List.nil_append] at e
          rcases List.append_eq_append_iff.1 e with ⟨x, e1, e2⟩ | ⟨x, e1, e2⟩
          · cases x with
            | nil => simp at e1; rw [e1]; exact List.mem_cons_self ..
            | cons y ys =>
              exfalso
              rcases h4 with ⟨h4, _⟩ | ⟨b', h4, _⟩
              · rw [h4] at e2; simp at e2
              · rw [h4] at e2; simp at e2
                exact hd (by rw [e1, ← e2.1]; simp)
          · cases x with
            | nil => simp at e1; rw [e1]; exact List.mem_cons_self ..
            | cons y ys =>
              exfalso
              rcases hq with rfl | ⟨q', rfl⟩
              · simp at e2
              · simp at e2
                exact h2 (by rw [e1, ← e2.1]; simp)
        · -- a later piece
          have hb : ∃ b', b = c :: b' ∧ ps = splitOn c b' := by
            rcases h4 with ⟨rfl, _⟩ | h4
            · exfalso
              have : c ∈ p := by
                rw [List.append_nil] at e; rw [e]; simp
              exact h2 this
            · exact h4
          obtain ⟨b', rfl, rfl⟩ := hb
          -- `a'` starts with `p`
          have e' : p ++ c :: b' = a' ++ (c :: (d ++ q)) := by rw [e]; simp
          rcases List.append_eq_append_iff.1 e' with ⟨x, e1, e2⟩ | ⟨x, e1, e2⟩
          · refine List.mem_cons_of_mem _ ((ih b'.length (by rw [← hn, h3]; simp; omega) b' rfl).2 ?_)
            cases x with
            | nil =>
              simp only [List.nil_append, List.cons.injEq, true_and] at e2
              exact ⟨hd, [], q, by simp [e2], .inl rfl, hq⟩
            | cons y ys =>
              simp only [List.cons_append, List.cons.injEq] at e2
              exact ⟨hd, ys ++ [c], q, by rw [e2.2]; simp, .inr ⟨ys, rfl⟩, hq⟩
          · cases x with
            | nil =>
              simp only [List.nil_append, List.cons.injEq, true_and] at e2
              refine List.mem_cons_of_mem _ ((ih b'.length (by rw [← hn, h3]; simp; omega) b' rfl).2 ?_)
              exact ⟨hd, [], q, by simp [← e2], .inl rfl, hq⟩
            | cons y ys =>
              exfalso
              simp only [List.cons_append, List.cons.injEq] at e2
              exact h2 (by rw [e1, ← e2.1]; simp)
  exact this s.length s rfl

theorem splitOn_getLast {c : Char} (s : Str) : ∃ q, (splitOn c s).getLast? = some q ∧ c ∉ q ∧
    (s = q ∨ ∃ a, s = a ++ c :: q) := by
  induction s with
  | nil => exact ⟨[], rfl, by simp, .inl rfl⟩
  | cons x xs ih =>
    obtain ⟨q, h1, h2, h3⟩ := ih
    cases hs : splitOn c xs with
    | nil => exact absurd hs (splitOn_ne_nil _ _)
    | cons p ps =>
      by_cases hx : x = c
      · subst hx
        refine ⟨q, ?_, h2, .inr ?_⟩
        · simp only [splitOn, if_true, hs]
          rw [hs] at h1
          rw [List.getLast?_cons_cons]; exact h1
        · rcases h3 with rfl | ⟨a, rfl⟩
          · exact ⟨[], rfl⟩
          · exact ⟨x :: a, rfl⟩
      · simp only [splitOn, if_neg hx, hs]
        rw [hs] at h1
        cases ps with
        | nil =>
          simp only [List.getLast?_singleton, Option.some.injEq] at h1
          subst h1
          have := splitOn_single_iff.1 ⟨p, hs⟩
          rcases h3 with rfl | ⟨a, rfl⟩
          · exact ⟨x :: xs, rfl, by simp [h2]; exact fun h => hx h.symm, .inl rfl⟩
          · exact absurd (by simp) this
        | cons r ps =>
          refine ⟨q, by rw [List.getLast?_cons_cons] at h1 ⊢; exact h1, h2, .inr ?_⟩
          rcases h3 with rfl | ⟨a, rfl⟩
          · exfalso
            obtain ⟨_, h⟩ := splitOn_single_iff.2 h2
            rw [hs] at h; simp at h
          · exact ⟨x :: a, rfl⟩

/-! ### Separators -/

theorem norm_sep {c : Char} : (if c = '\\' then '/' else c) = '/' ↔ sep c := by
  unfold sep
  split
  · rename_i h; simp [h]
  · rename_i h; simp [h]

theorem norm_noSep {s : Str} (h : ∀ c ∈ s, ¬ sep c) : normalizeSeps s = s := by
  unfold normalizeSeps
  conv => rhs; rw [← List.map_id s]
  apply List.map_congr_left
  intro c hc
  have := h c hc
  unfold sep at this
  simp; rintro rfl; exact absurd (.inr rfl) this

theorem norm_slash_mem {s : Str} : '/' ∈ normalizeSeps s ↔ ∃ c ∈ s, sep c := by
  unfold normalizeSeps
  rw [List.mem_map]
  constructor
  · rintro ⟨c, hc, h⟩; exact ⟨c, hc, norm_sep.1 h⟩
  · rintro ⟨c, hc, h⟩; exact ⟨c, hc, norm_sep.2 h⟩

theorem norm_eq_noSlash {s d : Str} (h : normalizeSeps s = d) (hd : '/' ∉ d) : s = d ∧ ∀ c ∈ s, ¬ sep c := by
  have h1 : ∀ c ∈ s, ¬ sep c := by
    intro c hc hs
    exact hd (by rw [← h]; exact norm_slash_mem.2 ⟨c, hc, hs⟩)
  exact ⟨by rw [← norm_noSep h1, h], h1⟩

theorem norm_append (s t : Str) : normalizeSeps (s ++ t) = normalizeSeps s ++ normalizeSeps t := by
  simp [normalizeSeps]

theorem norm_eq_append {s a b : Str} (h : normalizeSeps s = a ++ b) :
    ∃ x y, s = x ++ y ∧ normalizeSeps x = a ∧ normalizeSeps y = b := by
  unfold normalizeSeps at *
  obtain ⟨x, y, h1, h2, h3⟩ := List.map_eq_append_iff.1 h
  exact ⟨x, y, h1, h2, h3⟩

theorem norm_eq_cons {s b : Str} {c : Char} (h : normalizeSeps s = c :: b) :
    ∃ x y, s = x :: y ∧ (if x = '\\' then '/' else x) = c ∧ normalizeSeps y = b := by
  unfold normalizeSeps at *
  obtain ⟨x, y, h1, h2, h3⟩ := List.map_eq_cons_iff.1 h
  exact ⟨x, y, h1, h2, h3⟩

theorem component_iff {path d : Str} (hd : '/' ∉ d) : d ∈ splitOn '/' (normalizeSeps path) ↔ PathComponent path d := by
  rw [mem_splitOn]
  constructor
  · rintro ⟨_, a, b, e, ha, hb⟩
    rw [List.append_assoc] at e
    obtain ⟨x, y, rfl, hx, hy⟩ := norm_eq_append e
    obtain ⟨z, w, rfl, hz, hw⟩ := norm_eq_append hy
    obtain ⟨rfl, hns⟩ := norm_eq_noSlash hz hd
    refine ⟨hns, x, w, by simp, ?_, ?_⟩
    · rcases ha with rfl | ⟨a', rfl⟩
      · left; simpa [normalizeSeps] using hx
      · right
        obtain ⟨u, v, rfl, hu, hv⟩ := norm_eq_append hx
        obtain ⟨c, y, rfl, hc, hy⟩ := norm_eq_cons hv
        have : y = [] := by simpa [normalizeSeps] using hy
        subst this
        exact ⟨u, c, norm_sep.1 hc, rfl⟩
    · rcases hb with rfl | ⟨b', rfl⟩
      · left; simpa [normalizeSeps] using hw
      · right
        obtain ⟨c, y, rfl, hc, hy⟩ := norm_eq_cons hw
        exact ⟨c, y, norm_sep.1 hc, rfl⟩
  · rintro ⟨hns, a, b, rfl, ha, hb⟩
    refine ⟨hd, normalizeSeps a, normalizeSeps b, by rw [norm_append, norm_append, norm_noSep hns], ?_, ?_⟩
    · rcases ha with rfl | ⟨a', c, hc, rfl⟩
      · left; rfl
      · right; refine ⟨normalizeSeps a', ?_⟩
        rw [norm_append]
        simp only [normalizeSeps, List.map_cons, List.map_nil, norm_sep.2 hc]
    · rcases hb with rfl | ⟨c, b', hc, rfl⟩
      · left; rfl
      · right; refine ⟨normalizeSeps b', ?_⟩
        simp only [normalizeSeps, List.map_cons, norm_sep.2 hc]

theorem lastComponent_fileName (path : Str) : FileName path (lastComponent (normalizeSeps path)) := by
  obtain ⟨q, h1, h2, h3⟩ := splitOn_getLast (c := '/') (normalizeSeps path)
  unfold lastComponent
  rw [h1]
  simp only [Option.getD_some]
  rcases h3 with h3 | ⟨a, h3⟩
  · obtain ⟨h4, h5⟩ := norm_eq_noSlash h3 h2
    rw [← h4]; exact ⟨h5, .inl rfl⟩
  · obtain ⟨x, y, rfl, hx, hy⟩ := norm_eq_append h3
    obtain ⟨c, z, rfl, hc, hz⟩ := norm_eq_cons hy
    obtain ⟨rfl, h5⟩ := norm_eq_noSlash hz h2
    exact ⟨h5, .inr ⟨x, c, norm_sep.1 hc, rfl⟩⟩

theorem fileName_unique {path a b : Str} (ha : FileName path a) (hb : FileName path b) : a = b := by
  obtain ⟨ha1, ha2⟩ := ha
  obtain ⟨hb1, hb2⟩ := hb
  rcases ha2 with rfl | ⟨d, c, hc, rfl⟩
  · rcases hb2 with h | ⟨d, c, hc, rfl⟩
    · exact h
    · exact absurd hc (ha1 c (by simp))
  · rcases hb2 with rfl | ⟨d', c', hc', h⟩
    · exact absurd hc (hb1 c (by simp))
    · rcases List.append_eq_append_iff.1 h with ⟨x, e1, e2⟩ | ⟨x, e1, e2⟩
      · cases x with
        | nil => simp at e2; exact e2.2
        | cons y ys =>
          simp only [List.cons_append, List.cons.injEq] at e2
          exact absurd hc' (ha1 c' (by rw [e2.2]; simp))
      · cases x with
        | nil => simp at e2; exact e2.2.symm
        | cons y ys =>
          simp only [List.cons_append, List.cons.injEq] at e2
          exact absurd hc (hb1 c (by rw [e2.2]; simp))

/-! ### C43 -/

theorem trimSlashes {d : Str} (h : '/' ∉ d) : ((d ++ ['/']).reverse.dropWhile (· = '/')).reverse = d := by
  rw [List.reverse_append]
  simp only [List.reverse_cons, List.reverse_nil, List.nil_append, List.singleton_append,
    List.dropWhile_cons, decide_true, if_true]
  cases hr : d.reverse with
  | nil => simp at hr; simp [hr]
  | cons c cs =>
    have hc : c ≠ '/' := by
      rintro rfl
      exact h (by rw [← List.mem_reverse, hr]; simp)
    have : d = (c :: cs).reverse := by rw [← hr, List.reverse_reverse]
    rw [List.dropWhile_cons, if_neg (by simp [hc]), this]

theorem endsWith_slash {s : Str} : endsWith ['/'] s = true ↔ ∃ d, s = d ++ ['/'] := endsWith_iff

/-- **C43** (patterns). For every path and every pattern whose only slash, if any, is its last character, the editor's test
is the documented meaning of the pattern: a directory name for `dir/`, a wildcard on the file name for a pattern
with `*`, the file name otherwise; `/` and `\` both separate. -/
theorem C43_pattern (path pat : Str) (h : '/' ∉ pat ∨ ∃ d, '/' ∉ d ∧ pat = d ++ ['/']) :
    matchesPattern path pat = true ↔ PatternMatches path pat := by
  unfold matchesPattern
  rcases h with h | ⟨d, hd, rfl⟩
  · have hne : ¬ endsWith ['/'] pat = true := by
      rw [endsWith_slash]; rintro ⟨d, rfl⟩; simp at h
    simp only [if_neg hne]
    have hfn := lastComponent_fileName path
    by_cases hs : '*' ∈ pat
    · rw [if_pos hs, globBranch_iff hs]
      constructor
      · intro hg; exact .glob hs h hfn hg
      · intro hp
        cases hp with
        | dir => simp at h
        | glob _ _ hf hg => rw [fileName_unique hfn hf]; exact hg
        | name hn => exact absurd hs hn
    · rw [if_neg hs, decide_eq_true_eq]
      constructor
      · rintro rfl; exact .name hs h hfn
      · intro hp
        cases hp with
        | dir => simp at h
        | glob hn => exact absurd hn hs
        | name _ _ hf => exact fileName_unique hfn hf
  · have he : endsWith ['/'] (d ++ ['/']) = true := endsWith_slash.2 ⟨d, rfl⟩
    simp only [if_pos he, trimSlashes hd, List.any_eq_true, decide_eq_true_eq]
    constructor
    · rintro ⟨c, hc, rfl⟩; exact .dir hd ((component_iff hd).1 hc)
    · intro hp
      generalize hq : d ++ ['/'] = q at hp
      cases hp with
      | dir hd' hc =>
        rename_i d'
        have : d = d' := List.append_cancel_right hq
        subst this
        exact ⟨d, (component_iff hd).2 hc, rfl⟩
      | glob _ hn => rw [← hq] at hn; simp at hn
      | name _ hn => rw [← hq] at hn; simp at hn

theorem Glob.literal {pat s : Str} {c : Char} (hc : c ∈ pat) (hs : c ≠ '*') (h : Glob pat s) : c ∈ s := by
  induction h with
  | nil => cases hc
  | lit _ _ ih =>
    rcases List.mem_cons.1 hc with rfl | hc
    · simp
    · exact List.mem_cons_of_mem _ (ih hc)
  | star g _ ih =>
    rcases List.mem_cons.1 hc with rfl | hc
    · exact absurd rfl hs
    · exact List.mem_append_right _ (ih hc)

/-- **C43** (paths in patterns have no effect in the editor). A pattern with a slash before its last character
matches no file at all: `exclude = ["R/generated.R"]`, the example of the documentation, excludes nothing in the editor, and
`include = ["**/*{.Rmd,qmd}"]` excludes everything (finding F21). The command line reads both as gitignore globs. -/
theorem C43_inner_slash_never_matches (path a b : Str) (c : Char) (hc : c ≠ '/') :
    matchesPattern path (a ++ '/' :: c :: b) = false := by
  have hfn := (lastComponent_fileName path).1
  have hnos : '/' ∉ lastComponent (normalizeSeps path) := fun h => hfn _ h (.inl rfl)
  cases hm : matchesPattern path (a ++ '/' :: c :: b) with
  | false => rfl
  | true =>
    exfalso
    unfold matchesPattern at hm
    simp only at hm
    split at hm
    · simp only [List.any_eq_true, decide_eq_true_eq] at hm
      obtain ⟨x, hx, hx2⟩ := hm
      have hns := (mem_splitOn.1 hx).1
      rw [hx2] at hns
      apply hns
      rw [List.mem_reverse]
      have hrev : (a ++ '/' :: c :: b).reverse = b.reverse ++ c :: '/' :: a.reverse := by simp
      rw [hrev]
      generalize b.reverse = r
      induction r with
      | nil =>
        simp [hc]
      | cons y ys ih =>
        simp only [List.cons_append, List.dropWhile_cons]
        split
        · exact ih
        · simp
    · split at hm
      · rename_i hs
        exact hnos (Glob.literal (by simp) (by decide) ((globBranch_iff hs).1 hm))
      · have := of_decide_eq_true hm
        exact hnos (by rw [this]; simp)

/-- **C43** (settings). A file is left out by the editor exactly when a `jarl.toml` applies and the file matches one of its
`exclude` patterns, or one of the default patterns unless `default-exclude = false`, or matches none of a
non-empty `include` list. -/
theorem C43_excluded (path : Str) (s : Option ExcludeSettings) :
    shouldExcludeBySettings path s = true ↔
      ∃ t, s = some t ∧
        ((∃ l, t.exclude = some l ∧ ∃ p ∈ l, matchesPattern path p = true) ∨
         (t.defaultExclude ≠ some false ∧ ∃ p ∈ defaultExcludePatterns, matchesPattern path p = true) ∨
         (∃ l, t.include_ = some l ∧ l ≠ [] ∧ ∀ p ∈ l, matchesPattern path p = false)) := by
  cases s with
  | none => simp [shouldExcludeBySettings]
  | some t =>
    have hany : ∀ l : List Str, (!l.isEmpty && shouldExcludeFile path l) = shouldExcludeFile path l := by
      intro l; cases l <;> simp [shouldExcludeFile]
    simp only [shouldExcludeBySettings, Option.some.injEq, exists_eq_left']
    simp only [hany]
    obtain ⟨de, ex, inc⟩ := t
    simp only [shouldExcludeFile, List.any_append]
    rcases inc with _ | inc
    · cases de with
      | none => cases ex <;> simp [or_comm]
      | some b => cases b <;> cases ex <;> simp [or_comm]
    · cases inc with
      | nil =>
        cases de with
        | none => cases ex <;> simp [or_comm]
        | some b => cases b <;> cases ex <;> simp [or_comm]
      | cons i is =>
        by_cases hi : ∀ p ∈ i :: is, matchesPattern path p = false
        · have : (i :: is).any (matchesPattern path) = false := by
            rw [List.any_eq_false]; intro x hx; simp [hi x hx]
          simp only [this]
          have hr : (∃ l, some (i :: is) = some l ∧ l ≠ [] ∧ ∀ p ∈ l, matchesPattern path p = false) :=
            ⟨_, rfl, by simp, hi⟩
          simp only [hr, or_true, iff_true]
          simp
        · have : (i :: is).any (matchesPattern path) = true := by
            rw [List.any_eq_true]
            simp only [Classical.not_forall, Bool.not_eq_false] at hi
            obtain ⟨p, hp, hm⟩ := hi
            exact ⟨p, hp, hm⟩
          simp only [this]
          have hr : ¬ (∃ l, some (i :: is) = some l ∧ l ≠ [] ∧ ∀ p ∈ l, matchesPattern path p = false) := by
            rintro ⟨l, h1, _, h2⟩; cases h1; exact hi h2
          simp only [hr, or_false]
          cases de with
          | none => cases ex <;> simp [or_comm]
          | some b => cases b <;> cases ex <;> simp [or_comm]

/-- **C43** is not the rule of the command line: without a `jarl.toml`, the editor lints files the default patterns exclude
(finding F21). -/
theorem C43_no_settings_excludes_nothing (path : Str) : shouldExcludeBySettings path none = false := rfl

/-- Concrete cases. -/
example : PatternMatches (cs! "proj/renv/activate.R") (cs! "renv/") :=
  .dir (d := cs! "renv") (by decide) ⟨by unfold sep; decide, cs! "proj/", cs! "/activate.R", rfl,
    .inr ⟨cs! "proj", '/', .inl rfl, rfl⟩, .inr ⟨'/', cs! "activate.R", .inl rfl, rfl⟩⟩

example : matchesPattern (cs! "a\\b\\import-standalone-x.R") (cs! "import-standalone-*.R") = true := by decide
example : matchesPattern (cs! "R/aba") (cs! "ab*ba") = false := by decide
example : matchesPattern (cs! "R/my_custom_autogenerated_file.R") (cs! "R/my_custom_autogenerated_file.R") = false := by
  decide

end Jarl

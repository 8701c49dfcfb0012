import Verif.Lemmas.CfgCause

/-!
# Executable places are places where nothing visible prevents execution
-/

namespace Jarl

open Jarl.Spec

theorem bareReturn_cons {y : Stmt} {ss : List Stmt} (h : ¬ BareReturn (y :: ss)) : ¬ BareReturn [y] ∧ ¬ BareReturn ss := by
  have key : ∀ ts, (∀ z ∈ ts, z ∈ y :: ss) → BareReturn ts → BareReturn (y :: ss) := by
    intro ts hts hb
    cases hb with
    | here h => exact .here (hts _ h)
    | ifThen h h' => exact .ifThen (hts _ h) h'
    | ifElseT h h' => exact .ifElseT (hts _ h) h'
    | ifElseE h h' => exact .ifElseE (hts _ h) h'
    | loop h h' h'' => exact .loop (hts _ h) h' h''
  exact ⟨fun hb => h (key _ (by simp) hb), fun hb => h (key _ (fun z hz => List.mem_cons_of_mem _ hz) hb)⟩

theorem bareBlock_cons {y : Stmt} {ss : List Stmt} (h : ¬ BareBlock (y :: ss)) : ¬ BareBlock [y] ∧ ¬ BareBlock ss := by
  have key : ∀ ts, (∀ z ∈ ts, z ∈ y :: ss) → BareBlock ts → BareBlock (y :: ss) := by
    intro ts hts hb
    cases hb with
    | here h => exact .here (hts _ h)
    | ifThen h h' => exact .ifThen (hts _ h) h'
    | ifElseT h h' => exact .ifElseT (hts _ h) h'
    | ifElseE h h' => exact .ifElseE (hts _ h) h'
    | loop h h' h'' => exact .loop (hts _ h) h' h''
  exact ⟨fun hb => h (key _ (by simp) hb), fun hb => h (key _ (fun z hz => List.mem_cons_of_mem _ hz) hb)⟩

theorem bareReturn_iff_mem {ss : List Stmt} : BareReturn ss ↔ ∃ y ∈ ss, BareReturn [y] := by
  constructor
  · intro h
    cases h with
    | here h => exact ⟨_, h, .here (List.mem_singleton.2 rfl)⟩
    | ifThen h h' => exact ⟨_, h, .ifThen (List.mem_singleton.2 rfl) h'⟩
    | ifElseT h h' => exact ⟨_, h, .ifElseT (List.mem_singleton.2 rfl) h'⟩
    | ifElseE h h' => exact ⟨_, h, .ifElseE (List.mem_singleton.2 rfl) h'⟩
    | loop h h' h'' => exact ⟨_, h, .loop (List.mem_singleton.2 rfl) h' h''⟩
  · rintro ⟨y, hy, h⟩
    cases h with
    | here h => rw [← List.mem_singleton.1 h] at hy; exact .here hy
    | ifThen h h' => rw [← List.mem_singleton.1 h] at hy; exact .ifThen hy h'
    | ifElseT h h' => rw [← List.mem_singleton.1 h] at hy; exact .ifElseT hy h'
    | ifElseE h h' => rw [← List.mem_singleton.1 h] at hy; exact .ifElseE hy h'
    | loop h h' h'' => rw [← List.mem_singleton.1 h] at hy; exact .loop hy h' h''

theorem bareReturn_nil : ¬ BareReturn [] := fun h => by rw [bareReturn_iff_mem] at h; simp at h
theorem bareReturn_append {y : Stmt} {ss : List Stmt} (h1 : ¬ BareReturn [y]) (h2 : ¬ BareReturn ss) : ¬ BareReturn (y :: ss) := by
  intro h
  rw [bareReturn_iff_mem] at h
  obtain ⟨z, hz, h⟩ := h
  rcases List.mem_cons.1 hz with rfl | hz
  · exact h1 h
  · exact h2 (bareReturn_iff_mem.2 ⟨z, hz, h⟩)
theorem bareReturn_leaf {x : Stmt} (h1 : ∀ r, x ≠ .ret r) (h5 : ∀ r t, (∀ k, x ≠ .ifThen r k t) ∧ (∀ k e, x ≠ .ifElse r k t e) ∧ ¬ IsLoop x r t) :
    ¬ BareReturn [x] := by
  intro h
  cases h with
  | here h => exact h1 _ (List.mem_singleton.1 h).symm
  | ifThen h => exact (h5 _ _).1 _ (List.mem_singleton.1 h).symm
  | ifElseT h => exact (h5 _ _).2.1 _ _ (List.mem_singleton.1 h).symm
  | ifElseE h => exact (h5 _ _).2.1 _ _ (List.mem_singleton.1 h).symm
  | loop h hL => rw [List.mem_singleton.1 h] at hL; exact (h5 _ _).2.2 hL
theorem bareReturn_ifThen {r : Range} {k : Cond} {t : Stmt} (h : ¬ BareReturn (bodyList t)) : ¬ BareReturn [.ifThen r k t] := by
  intro h'
  cases h' with
  | here h => simp at h
  | ifThen hm h' => cases List.mem_singleton.1 hm; exact h h'
  | ifElseT h => simp at h
  | ifElseE h => simp at h
  | loop h hL => rw [List.mem_singleton.1 h] at hL; cases hL
theorem bareReturn_ifElse {r : Range} {k : Cond} {t e : Stmt} (h : ¬ BareReturn (bodyList t)) (he : ¬ BareReturn (bodyList e)) : ¬ BareReturn [.ifElse r k t e] := by
  intro h'
  cases h' with
  | here h => simp at h
  | ifThen h => simp at h
  | ifElseT hm h' => cases List.mem_singleton.1 hm; exact h h'
  | ifElseE hm h' => cases List.mem_singleton.1 hm; exact he h'
  | loop h hL => rw [List.mem_singleton.1 h] at hL; cases hL
theorem bareReturn_loop {L : Stmt} {r : Range} {b : Stmt} (hL : IsLoop L r b) (h : ¬ BareReturn (bodyList b)) : ¬ BareReturn [L] := by
  intro h'
  cases h' with
  | here h => cases hL <;> simp at h
  | ifThen h => cases hL <;> simp at h
  | ifElseT h => cases hL <;> simp at h
  | ifElseE h => cases hL <;> simp at h
  | loop hm hL' h' => rw [List.mem_singleton.1 hm] at hL'; cases hL <;> cases hL' <;> exact h h'

theorem bareBlock_iff_mem {ss : List Stmt} : BareBlock ss ↔ ∃ y ∈ ss, BareBlock [y] := by
  constructor
  · intro h
    cases h with
    | here h => exact ⟨_, h, .here (List.mem_singleton.2 rfl)⟩
    | ifThen h h' => exact ⟨_, h, .ifThen (List.mem_singleton.2 rfl) h'⟩
    | ifElseT h h' => exact ⟨_, h, .ifElseT (List.mem_singleton.2 rfl) h'⟩
    | ifElseE h h' => exact ⟨_, h, .ifElseE (List.mem_singleton.2 rfl) h'⟩
    | loop h h' h'' => exact ⟨_, h, .loop (List.mem_singleton.2 rfl) h' h''⟩
  · rintro ⟨y, hy, h⟩
    cases h with
    | here h => rw [← List.mem_singleton.1 h] at hy; exact .here hy
    | ifThen h h' => rw [← List.mem_singleton.1 h] at hy; exact .ifThen hy h'
    | ifElseT h h' => rw [← List.mem_singleton.1 h] at hy; exact .ifElseT hy h'
    | ifElseE h h' => rw [← List.mem_singleton.1 h] at hy; exact .ifElseE hy h'
    | loop h h' h'' => rw [← List.mem_singleton.1 h] at hy; exact .loop hy h' h''

theorem bareBlock_nil : ¬ BareBlock [] := fun h => by rw [bareBlock_iff_mem] at h; simp at h
theorem bareBlock_append {y : Stmt} {ss : List Stmt} (h1 : ¬ BareBlock [y]) (h2 : ¬ BareBlock ss) : ¬ BareBlock (y :: ss) := by
  intro h
  rw [bareBlock_iff_mem] at h
  obtain ⟨z, hz, h⟩ := h
  rcases List.mem_cons.1 hz with rfl | hz
  · exact h1 h
  · exact h2 (bareBlock_iff_mem.2 ⟨z, hz, h⟩)
theorem bareBlock_leaf {x : Stmt} (h1 : ∀ r ss, x ≠ .braced r ss) (h5 : ∀ r t, (∀ k, x ≠ .ifThen r k t) ∧ (∀ k e, x ≠ .ifElse r k t e) ∧ ¬ IsLoop x r t) :
    ¬ BareBlock [x] := by
  intro h
  cases h with
  | here h => exact h1 _ _ (List.mem_singleton.1 h).symm
  | ifThen h => exact (h5 _ _).1 _ (List.mem_singleton.1 h).symm
  | ifElseT h => exact (h5 _ _).2.1 _ _ (List.mem_singleton.1 h).symm
  | ifElseE h => exact (h5 _ _).2.1 _ _ (List.mem_singleton.1 h).symm
  | loop h hL => rw [List.mem_singleton.1 h] at hL; exact (h5 _ _).2.2 hL
theorem bareBlock_ifThen {r : Range} {k : Cond} {t : Stmt} (h : ¬ BareBlock (bodyList t)) : ¬ BareBlock [.ifThen r k t] := by
  intro h'
  cases h' with
  | here h => simp at h
  | ifThen hm h' => cases List.mem_singleton.1 hm; exact h h'
  | ifElseT h => simp at h
  | ifElseE h => simp at h
  | loop h hL => rw [List.mem_singleton.1 h] at hL; cases hL
theorem bareBlock_ifElse {r : Range} {k : Cond} {t e : Stmt} (h : ¬ BareBlock (bodyList t)) (he : ¬ BareBlock (bodyList e)) : ¬ BareBlock [.ifElse r k t e] := by
  intro h'
  cases h' with
  | here h => simp at h
  | ifThen h => simp at h
  | ifElseT hm h' => cases List.mem_singleton.1 hm; exact h h'
  | ifElseE hm h' => cases List.mem_singleton.1 hm; exact he h'
  | loop h hL => rw [List.mem_singleton.1 h] at hL; cases hL
theorem bareBlock_loop {L : Stmt} {r : Range} {b : Stmt} (hL : IsLoop L r b) (h : ¬ BareBlock (bodyList b)) : ¬ BareBlock [L] := by
  intro h'
  cases h' with
  | here h => cases hL <;> simp at h
  | ifThen h => cases hL <;> simp at h
  | ifElseT h => cases hL <;> simp at h
  | ifElseE h => cases hL <;> simp at h
  | loop hm hL' h' => rw [List.mem_singleton.1 hm] at hL'; cases hL <;> cases hL' <;> exact h h'

/-- A statement that ends its block does not complete normally. -/
theorem ends_abrupt (stop : List Str) :
    (∀ x, ∀ l, Ends stop l x → ¬ BareReturn [x] → ∀ (σ : Type) (I : Interp σ) s s', ¬ Exec stop I x s .normal s') ∧
    (∀ ss, ∀ l, EndsL stop l ss → ¬ BareReturn ss → ∀ (σ : Type) (I : Interp σ) s s', ¬ ExecSeq stop I ss s .normal s') := by
  have call : ∀ {f n : Str} {r : Range} {σ : Type} {I : Interp σ} {s s' : σ}, LastName f n →
      (n = cs! "return" ∨ n = cs! "break" ∨ n = cs! "next" ∨ n ∈ stop) → ¬ Exec stop I (.call r f) s .normal s' := by
    intro f n r σ I s s' h1 h2 h
    generalize ho : Outcome.normal = o at h
    cases h with
    | call _ h => exact h ⟨n, h1, h2⟩ ho.symm
    | loopLeave hL => cases hL
    | loopEnds hL => cases hL
    | loopAgain hL => cases hL
    | loopFails hL => cases hL
  have loop : ∀ {L r b l}, IsLoop L r b → ¬ Ends stop l L := by
    intro L r b l hL h
    cases h with
    | jump h => exact (jump_leaf h r b).2.2 hL
    | ifElse => cases hL
  apply Stmt.both
  · intro l h; cases h
  · intro y ss hy hss l h hb σ I s s' he
    obtain ⟨b1, b2⟩ := bareReturn_cons hb
    cases he with
    | abrupt _ h => exact h rfl
    | cons h1 h2 =>
      cases h with
      | here h => exact hy l h b1 σ I _ _ h1
      | later h => exact hss l h b2 σ I _ _ h2
  · intro r l h _ σ I s s' he
    generalize ho : Outcome.normal = o at he
    cases he with
    | brk => cases ho
    | loopLeave hL => cases hL
    | loopEnds hL => cases hL
    | loopAgain hL => cases hL
    | loopFails hL => cases hL
  · intro r l h _ σ I s s' he
    generalize ho : Outcome.normal = o at he
    cases he with
    | nxt => cases ho
    | loopLeave hL => cases hL
    | loopEnds hL => cases hL
    | loopAgain hL => cases hL
    | loopFails hL => cases hL
  · intro r l h hb; exact absurd (.here (List.mem_singleton.2 rfl)) hb
  · intro r f l h _ σ I s s' he
    cases h with
    | jump h =>
      cases h with
      | ret h => exact call h (Or.inl rfl) he
      | stop h h' => exact call h (Or.inr (Or.inr (Or.inr h'))) he
      | brkCall h => exact call h (Or.inr (Or.inl rfl)) he
      | nxtCall h => exact call h (Or.inr (Or.inr (Or.inl rfl))) he
  · intro r l h; cases h with | jump h => cases h
  · intro r ss _ l h; cases h with | jump h => cases h
  · intro r k t _ l h; cases h with | jump h => cases h
  · intro r k t e ht he l h hb σ I s s' hex
    cases h with
    | jump h => cases h
    | ifElse h1 h2 =>
      generalize ho : Outcome.normal = o at hex
      cases hex with
      | ifElseTrue hd hx => subst ho; exact ht l (h1 ⟨σ, I, _, _, hd⟩) (fun h => hb (.ifElseT (List.mem_singleton.2 rfl) h)) σ I _ _ hx
      | ifElseFalse hd hx => subst ho; exact he l (h2 ⟨σ, I, _, _, hd⟩) (fun h => hb (.ifElseE (List.mem_singleton.2 rfl) h)) σ I _ _ hx
      | ifElseFails _ h => exact h ho.symm
      | loopLeave hL => cases hL
      | loopEnds hL => cases hL
      | loopAgain hL => cases hL
      | loopFails hL => cases hL
  · intro r b _ l h; exact absurd h (loop .fors)
  · intro r k b _ l h; exact absurd h (loop .whiles)
  · intro r b _ l h; exact absurd h (loop .repeats)

mutual
theorem inside_at {stop : List Str} {σ : Type} {I : Interp σ} {y : Stmt} {s : σ} {z : List Stmt} (h : Inside stop I y s z)
    (hb : ¬ BareReturn [y]) (hn : ¬ BareBlock [y]) (l : Bool) : ∃ m, AtIn stop l y m z := by
  match h with
  | .braced _ => exact absurd (.here (List.mem_singleton.2 rfl)) hn
  | .ifThen hd h =>
    obtain ⟨m, hm⟩ := reaches_at h (fun h => hb (.ifThen (List.mem_singleton.2 rfl) h)) (fun h => hn (.ifThen (List.mem_singleton.2 rfl) h)) l
    exact ⟨m, .ifThen ⟨σ, I, _, _, hd⟩ hm⟩
  | .ifElseTrue hd h =>
    obtain ⟨m, hm⟩ := reaches_at h (fun h => hb (.ifElseT (List.mem_singleton.2 rfl) h)) (fun h => hn (.ifElseT (List.mem_singleton.2 rfl) h)) l
    exact ⟨m, .ifElseT ⟨σ, I, _, _, hd⟩ hm⟩
  | .ifElseFalse hd h =>
    obtain ⟨m, hm⟩ := reaches_at h (fun h => hb (.ifElseE (List.mem_singleton.2 rfl) h)) (fun h => hn (.ifElseE (List.mem_singleton.2 rfl) h)) l
    exact ⟨m, .ifElseE ⟨σ, I, _, _, hd⟩ hm⟩
  | .loop hL _ h =>
    obtain ⟨m, hm⟩ := reaches_at h (fun h => hb (.loop (List.mem_singleton.2 rfl) hL h)) (fun h => hn (.loop (List.mem_singleton.2 rfl) hL h)) true
    exact ⟨m, .loop hL hm⟩
  | .loopAgain _ _ _ _ h => exact inside_at h hb hn l
theorem reaches_at {stop : List Str} {σ : Type} {I : Interp σ} {ss : List Stmt} {s : σ} {z : List Stmt} (h : Reaches stop I ss s z)
    (hb : ¬ BareReturn ss) (hn : ¬ BareBlock ss) (l : Bool) : ∃ m, At stop l ss m z := by
  match h with
  | .here => exact ⟨l, .here⟩
  | .inside h =>
    obtain ⟨m, hm⟩ := inside_at h (bareReturn_cons hb).1 (bareBlock_cons hn).1 l
    exact ⟨m, .inside hm⟩
  | .later hx h =>
    obtain ⟨m, hm⟩ := reaches_at h (bareReturn_cons hb).2 (bareBlock_cons hn).2 l
    exact ⟨m, .later (fun he => (ends_abrupt stop).1 _ l he (bareReturn_cons hb).1 σ I _ _ hx) hm⟩
end

end Jarl

import Verif.Spec.Discovery
/-!
# C47: which jarl.toml is used for which file
-/
namespace Jarl
open Spec

theorem ancestors_nil : ancestors [] = [[]] := rfl

theorem ancestors_snoc (p : DPath) (x : Str) : ancestors (p ++ [x]) = (p ++ [x]) :: ancestors p := by
  unfold ancestors
  rw [List.length_append, List.length_singleton, List.range_succ, List.reverse_append, List.map_append]
  simp only [List.reverse_singleton, List.map_cons, List.map_nil, List.singleton_append, List.cons.injEq]
  refine ⟨List.take_of_length_le (by simp), ?_⟩
  apply List.map_congr_left
  intro n hn
  simp only [List.mem_reverse, List.mem_range] at hn
  rw [List.take_append_of_le_length (by omega)]

theorem snoc_ind {α} {P : List α → Prop} (h0 : P []) (h1 : ∀ p x, P p → P (p ++ [x])) (p : List α) : P p := by
  rw [← List.reverse_reverse p]
  induction p.reverse with
  | nil => exact h0
  | cons x xs ih => rw [List.reverse_cons]; exact h1 _ _ ih

theorem prefix_snoc {α} {e p : List α} {x : α} : e <+: p ++ [x] ↔ e = p ++ [x] ∨ e <+: p := by
  constructor
  · rintro ⟨t, ht⟩
    rcases snoc_ind (P := fun t => t = [] ∨ ∃ q y, t = q ++ [y]) (.inl rfl) (fun q y _ => .inr ⟨q, y, rfl⟩) t with rfl | ⟨q, y, rfl⟩
    · left; simpa using ht
    · right
      rw [← List.append_assoc] at ht
      obtain ⟨h1, -⟩ := List.append_inj' ht rfl
      exact ⟨q, h1⟩
  · rintro (rfl | h)
    · exact List.prefix_refl _
    · exact h.trans (List.prefix_append _ _)

theorem not_prefix_longer {p : DPath} {x : Str} : ¬ (p ++ [x]) <+: p := by
  intro h
  have := h.length_le
  simp at this
  omega

theorem nearest_unique {S} {fs : ConfigFs S} {d e f : DPath} (h1 : Nearest fs d f) (h2 : Nearest fs e f) : d = e := by
  have hl : d.length = e.length := Nat.le_antisymm (h2.2.2 d h1.1 h1.2.1) (h1.2.2 e h2.1 h2.2.1)
  obtain ⟨t1, ht1⟩ := h1.1
  obtain ⟨t2, ht2⟩ := h2.1
  exact (List.append_inj (ht1.trans ht2.symm) hl).1

theorem nearest_snoc {S} {fs : ConfigFs S} {d p : DPath} {x : Str} (hn : fs.toml (p ++ [x]) = none)
    (h : Nearest fs d (p ++ [x])) : Nearest fs d p := by
  obtain ⟨h1, h2, h3⟩ := h
  refine ⟨?_, h2, fun e he ht => h3 e (prefix_snoc.mpr (.inr he)) ht⟩
  rcases prefix_snoc.mp h1 with rfl | h1
  · exact absurd hn h2
  · exact h1

theorem outside_prefix {S} {fs : ConfigFs S} {p q : DPath} (h : OutsideUserDir fs q) (hp : p <+: q) : OutsideUserDir fs p :=
  fun c hc hcp => h c hc (hcp.trans hp)

/-- What one walk towards the root does. -/
theorem walkDirs_spec {S} (fs : ConfigFs S) (p : DPath) : ∀ (seen seen' : List DPath) (r : Option (DPath × S)),
    walkDirs fs (ancestors p) seen = some (seen', r) →
    (∀ a ∈ seen, a ∈ seen') ∧ p ∈ seen' ∧
    (∀ x, r = some x → x.1 ∉ seen ∧ x.1 ∈ seen' ∧ fs.toml x.1 = some (some x.2)) ∧
    (∀ a ∈ seen', a ∉ seen → OutsideUserDir fs a → ∀ d, Nearest fs d a →
      (∃ s, r = some (d, s)) ∨ ∃ a' ∈ seen, a' <+: p ∧ OutsideUserDir fs a' ∧ Nearest fs d a') := by
  refine snoc_ind (P := fun p => ∀ (seen seen' : List DPath) (r : Option (DPath × S)),
    walkDirs fs (ancestors p) seen = some (seen', r) →
    (∀ a ∈ seen, a ∈ seen') ∧ p ∈ seen' ∧
    (∀ x, r = some x → x.1 ∉ seen ∧ x.1 ∈ seen' ∧ fs.toml x.1 = some (some x.2)) ∧
    (∀ a ∈ seen', a ∉ seen → OutsideUserDir fs a → ∀ d, Nearest fs d a →
      (∃ s, r = some (d, s)) ∨ ∃ a' ∈ seen, a' <+: p ∧ OutsideUserDir fs a' ∧ Nearest fs d a')) ?_ ?_ p
  · intro seen seen' r h
    rw [ancestors_nil] at h
    simp only [walkDirs] at h
    split at h
    · rename_i hm
      simp only [Option.some.injEq, Prod.mk.injEq] at h
      obtain ⟨rfl, rfl⟩ := h
      exact ⟨fun _ h => h, hm, (by simp), fun a ha hna => absurd ha hna⟩
    · rename_i hm
      split at h
      · rename_i s ht
        simp only [Option.some.injEq, Prod.mk.injEq] at h
        obtain ⟨rfl, rfl⟩ := h
        refine ⟨fun _ h => List.mem_cons_of_mem _ h, List.mem_cons_self, ?_, ?_⟩
        · intro x hx
          simp only [Option.some.injEq] at hx
          subst hx
          exact ⟨hm, List.mem_cons_self, ht⟩
        · intro a ha hna _ d hd
          rcases List.mem_cons.mp ha with rfl | ha
          · left
            have : d = [] := by simpa using hd.1
            subst this
            exact ⟨s, rfl⟩
          · exact absurd ha hna
      · cases h
      · rename_i ht
        have h' : some (([] : DPath) :: seen, (none : Option (DPath × S))) = some (seen', r) := by
          split at h <;> simpa using h
        simp only [Option.some.injEq, Prod.mk.injEq] at h'
        obtain ⟨rfl, rfl⟩ := h'
        refine ⟨fun _ h => List.mem_cons_of_mem _ h, List.mem_cons_self, (by simp), ?_⟩
        intro a ha hna _ d hd
        rcases List.mem_cons.mp ha with rfl | ha
        · have : d = [] := by simpa using hd.1
          subst this
          exact absurd ht hd.2.1
        · exact absurd ha hna
  · intro p x ih seen seen' r h
    rw [ancestors_snoc] at h
    simp only [walkDirs] at h
    split at h
    · rename_i hm
      simp only [Option.some.injEq, Prod.mk.injEq] at h
      obtain ⟨rfl, rfl⟩ := h
      exact ⟨fun _ h => h, hm, (by simp), fun a ha hna => absurd ha hna⟩
    · rename_i hm
      split at h
      · rename_i s ht
        simp only [Option.some.injEq, Prod.mk.injEq] at h
        obtain ⟨rfl, rfl⟩ := h
        refine ⟨fun _ h => List.mem_cons_of_mem _ h, List.mem_cons_self, ?_, ?_⟩
        · intro y hy
          simp only [Option.some.injEq] at hy
          subst hy
          exact ⟨hm, List.mem_cons_self, ht⟩
        · intro a ha hna _ d hd
          rcases List.mem_cons.mp ha with rfl | ha
          · left
            have : Nearest fs (p ++ [x]) (p ++ [x]) :=
              ⟨List.prefix_refl _, (by rw [ht]; simp), fun e he _ => he.length_le⟩
            exact ⟨s, by rw [nearest_unique hd this]⟩
          · exact absurd ha hna
      · cases h
      · rename_i ht
        split at h
        · rename_i hu
          simp only [Option.some.injEq, Prod.mk.injEq] at h
          obtain ⟨rfl, rfl⟩ := h
          refine ⟨fun _ h => List.mem_cons_of_mem _ h, List.mem_cons_self, (by simp), ?_⟩
          intro a ha hna ho d hd
          rcases List.mem_cons.mp ha with rfl | ha
          · exact absurd (List.prefix_refl _) (ho _ hu)
          · exact absurd ha hna
        · obtain ⟨h1, h2, h3, h4⟩ := ih _ _ _ h
          refine ⟨fun a ha => h1 a (List.mem_cons_of_mem _ ha), h1 _ List.mem_cons_self, ?_, ?_⟩
          · intro y hy
            obtain ⟨g1, g2, g3⟩ := h3 y hy
            exact ⟨fun hc => g1 (List.mem_cons_of_mem _ hc), g2, g3⟩
          · have key : ∀ a ∈ seen', a ∉ (p ++ [x]) :: seen → OutsideUserDir fs a → ∀ d, Nearest fs d a →
                (∃ s, r = some (d, s)) ∨ ∃ a' ∈ seen, a' <+: p ++ [x] ∧ OutsideUserDir fs a' ∧ Nearest fs d a' := by
              intro a ha hna ho d hd
              rcases h4 a ha hna ho d hd with hl | ⟨a', g1, g2, g3, g4⟩
              · exact .inl hl
              · right
                rcases List.mem_cons.mp g1 with rfl | g1
                · exact absurd g2 not_prefix_longer
                · exact ⟨a', g1, prefix_snoc.mpr (.inr g2), g3, g4⟩
            intro a ha hna ho d hd
            by_cases hax : a = p ++ [x]
            · subst hax
              have hd' := nearest_snoc ht hd
              have ho' := outside_prefix ho (List.prefix_append p [x])
              by_cases hps : p ∈ seen
              · exact .inr ⟨p, hps, List.prefix_append _ _, ho', hd'⟩
              · refine key p h2 ?_ ho' d hd'
                intro hc
                rcases List.mem_cons.mp hc with hc | hc
                · have := congrArg List.length hc; simp at this
                · exact hps hc
            · exact key a ha (fun hc => by rcases List.mem_cons.mp hc with hc | hc; exact hax hc; exact hna hc) ho d hd

/-- Invariant of the upward phase. -/
structure UpInv {S} (fs : ConfigFs S) (seen : List DPath) (acc : List (DPath × S)) : Prop where
  valid : ∀ x ∈ acc, fs.toml x.1 = some (some x.2) ∧ x.1 ∈ seen
  nodup : (acc.map Prod.fst).Nodup
  closed : ∀ a ∈ seen, OutsideUserDir fs a → ∀ d, Nearest fs d a → d ∈ acc.map Prod.fst

theorem upInv_snoc {S} {fs : ConfigFs S} {seen seen' : List DPath} {acc : List (DPath × S)} {x : DPath × S}
    (h : UpInv fs seen acc) (hs : ∀ a ∈ seen, a ∈ seen') (h1 : x.1 ∉ seen) (h2 : x.1 ∈ seen')
    (h3 : fs.toml x.1 = some (some x.2))
    (hc : ∀ a ∈ seen', OutsideUserDir fs a → ∀ d, Nearest fs d a → d ∈ (acc ++ [x]).map Prod.fst) :
    UpInv fs seen' (acc ++ [x]) := by
  refine ⟨?_, ?_, hc⟩
  · intro y hy
    rcases List.mem_append.mp hy with hy | hy
    · exact ⟨(h.valid y hy).1, hs _ (h.valid y hy).2⟩
    · simp only [List.mem_singleton] at hy
      subst hy
      exact ⟨h3, h2⟩
  · rw [List.map_append, List.nodup_append]
    refine ⟨h.nodup, by simp, ?_⟩
    intro a ha b hb hab
    simp only [List.map_cons, List.map_nil, List.mem_singleton] at hb
    obtain ⟨y, hy, rfl⟩ := List.mem_map.mp ha
    exact h1 (by rw [← hb, ← hab]; exact (h.valid y hy).2)

theorem discoverOne_inv {S} {fs : ConfigFs S} {p : DPath} {seen seen' : List DPath} {acc acc' : List (DPath × S)}
    (h : UpInv fs seen acc) (hd : discoverOne fs p seen acc = some (seen', acc')) :
    UpInv fs seen' acc' ∧ p ∈ seen' ∧ (∀ a ∈ seen, a ∈ seen') := by
  unfold discoverOne at hd
  split at hd
  · cases hd
  · rename_i s1 x hw
    simp only [Option.some.injEq, Prod.mk.injEq] at hd
    obtain ⟨rfl, rfl⟩ := hd
    obtain ⟨h1, h2, h3, h4⟩ := walkDirs_spec fs p _ _ _ hw
    obtain ⟨g1, g2, g3⟩ := h3 x rfl
    refine ⟨upInv_snoc h h1 g1 g2 g3 ?_, h2, h1⟩
    intro a ha ho d hn
    by_cases hs : a ∈ seen
    · simp [h.closed a hs ho d hn]
    · rcases h4 a ha hs ho d hn with ⟨s, hs'⟩ | ⟨a', k1, k2, k3, k4⟩
      · simp only [Option.some.injEq] at hs'
        subst hs'
        simp
      · have := h.closed a' k1 k3 d k4
        rw [List.map_append]
        exact List.mem_append_left _ this
  · rename_i s1 hw
    obtain ⟨h1, h2, h3, h4⟩ := walkDirs_spec fs p _ _ _ hw
    have hi : UpInv fs s1 acc := by
      refine ⟨fun x hx => ⟨(h.valid x hx).1, h1 _ (h.valid x hx).2⟩, h.nodup, ?_⟩
      intro a ha ho d hn
      by_cases hs : a ∈ seen
      · exact h.closed a hs ho d hn
      · rcases h4 a ha hs ho d hn with ⟨s, hs'⟩ | ⟨a', k1, k2, k3, k4⟩
        · cases hs'
        · exact h.closed a' k1 k3 d k4
    unfold userFallback at hd
    split at hd
    · simp only [Option.some.injEq, Prod.mk.injEq] at hd
      obtain ⟨rfl, rfl⟩ := hd
      exact ⟨hi, h2, h1⟩
    · rename_i c hc
      split at hd
      · simp only [Option.some.injEq, Prod.mk.injEq] at hd
        obtain ⟨rfl, rfl⟩ := hd
        exact ⟨hi, h2, h1⟩
      · rename_i hcs
        split at hd
        · rename_i s ht
          simp only [Option.some.injEq, Prod.mk.injEq] at hd
          obtain ⟨rfl, rfl⟩ := hd
          refine ⟨upInv_snoc hi (fun a ha => List.mem_cons_of_mem _ ha) hcs List.mem_cons_self ht ?_,
            List.mem_cons_of_mem _ h2, fun a ha => List.mem_cons_of_mem _ (h1 a ha)⟩
          intro a ha ho d hn
          rcases List.mem_cons.mp ha with rfl | ha
          · exact absurd (List.prefix_refl _) (ho _ hc)
          · rw [List.map_append]; exact List.mem_append_left _ (hi.closed a ha ho d hn)
        · cases hd
        · simp only [Option.some.injEq, Prod.mk.injEq] at hd
          obtain ⟨rfl, rfl⟩ := hd
          refine ⟨⟨fun x hx => ⟨(hi.valid x hx).1, List.mem_cons_of_mem _ (hi.valid x hx).2⟩, hi.nodup, ?_⟩,
            List.mem_cons_of_mem _ h2, fun a ha => List.mem_cons_of_mem _ (h1 a ha)⟩
          intro a ha ho d hn
          rcases List.mem_cons.mp ha with rfl | ha
          · exact absurd (List.prefix_refl _) (ho _ hc)
          · exact hi.closed a ha ho d hn

theorem discoverUp_inv {S} {fs : ConfigFs S} : ∀ {ps : List DPath} {seen : List DPath} {acc acc' : List (DPath × S)},
    UpInv fs seen acc → discoverUp fs ps seen acc = some acc' →
    ∃ seen', UpInv fs seen' acc' ∧ (∀ a ∈ seen, a ∈ seen') ∧ ∀ p ∈ ps, p ∈ seen'
  | [], seen, acc, acc', h, hd => by
    simp only [discoverUp, Option.some.injEq] at hd
    subst hd
    exact ⟨seen, h, fun _ h => h, by simp⟩
  | p :: ps, seen, acc, acc', h, hd => by
    simp only [discoverUp] at hd
    split at hd
    · cases hd
    · rename_i s1 a1 h1
      obtain ⟨g1, g2, g3⟩ := discoverOne_inv h h1
      obtain ⟨s2, k1, k2, k3⟩ := discoverUp_inv g1 hd
      refine ⟨s2, k1, fun a ha => k2 a (g3 a ha), ?_⟩
      intro q hq
      rcases List.mem_cons.mp hq with rfl | hq
      · exact k2 _ g2
      · exact k3 q hq

/-- Invariant of the downward phase. -/
structure DownInv {S} (fs : ConfigFs S) (acc : List (DPath × S)) : Prop where
  valid : ∀ x ∈ acc, fs.toml x.1 = some (some x.2)
  nodup : (acc.map Prod.fst).Nodup

theorem discoverNested_inv {S} {fs : ConfigFs S} {root : DPath} : ∀ {ds : List DPath} {acc acc' : List (DPath × S)},
    DownInv fs acc → discoverNested fs root ds acc = some acc' →
    DownInv fs acc' ∧ (∃ more, acc' = acc ++ more) ∧ ∀ d ∈ ds, d ≠ root → fs.toml d ≠ none → d ∈ acc'.map Prod.fst
  | [], acc, acc', h, hd => by
    simp only [discoverNested, Option.some.injEq] at hd
    subst hd
    exact ⟨h, ⟨[], by simp⟩, by simp⟩
  | d :: ds, acc, acc', h, hd => by
    simp only [discoverNested] at hd
    split at hd
    · rename_i e
      obtain ⟨g1, g2, g3⟩ := discoverNested_inv h hd
      refine ⟨g1, g2, fun x hx hr ht => ?_⟩
      rcases List.mem_cons.mp hx with rfl | hx
      · exact absurd e hr
      · exact g3 x hx hr ht
    · split at hd
      · rename_i hm
        obtain ⟨g1, ⟨more, rfl⟩, g3⟩ := discoverNested_inv h hd
        refine ⟨g1, ⟨more, rfl⟩, fun x hx hr ht => ?_⟩
        rcases List.mem_cons.mp hx with rfl | hx
        · rw [List.map_append]; exact List.mem_append_left _ hm
        · exact g3 x hx hr ht
      · rename_i hm
        split at hd
        · rename_i s ht0
          have h' : DownInv fs (acc ++ [(d, s)]) := by
            refine ⟨?_, ?_⟩
            · intro y hy
              rcases List.mem_append.mp hy with hy | hy
              · exact h.valid y hy
              · simp only [List.mem_singleton] at hy
                subst hy
                exact ht0
            · rw [List.map_append, List.nodup_append]
              refine ⟨h.nodup, by simp, ?_⟩
              intro a ha b hb hab
              simp only [List.map_cons, List.map_nil, List.mem_singleton] at hb
              exact hm (by rw [← hb, ← hab]; exact ha)
          obtain ⟨g1, ⟨more, rfl⟩, g3⟩ := discoverNested_inv h' hd
          refine ⟨g1, ⟨[(d, s)] ++ more, by simp⟩, fun x hx hr ht => ?_⟩
          rcases List.mem_cons.mp hx with rfl | hx
          · simp
          · exact g3 x hx hr ht
        · cases hd
        · rename_i ht0
          obtain ⟨g1, g2, g3⟩ := discoverNested_inv h hd
          refine ⟨g1, g2, fun x hx hr ht => ?_⟩
          rcases List.mem_cons.mp hx with rfl | hx
          · exact absurd ht0 ht
          · exact g3 x hx hr ht

theorem discoverDown_inv {S} {fs : ConfigFs S} : ∀ {ps : List DPath} {acc acc' : List (DPath × S)},
    DownInv fs acc → discoverDown fs ps acc = some acc' →
    DownInv fs acc' ∧ (∃ more, acc' = acc ++ more) ∧
      ∀ p ∈ ps, ∀ d ∈ fs.walk p, d ≠ p → fs.toml d ≠ none → d ∈ acc'.map Prod.fst
  | [], acc, acc', h, hd => by
    simp only [discoverDown, Option.some.injEq] at hd
    subst hd
    exact ⟨h, ⟨[], by simp⟩, by simp⟩
  | p :: ps, acc, acc', h, hd => by
    simp only [discoverDown] at hd
    split at hd
    · cases hd
    · rename_i a1 h1
      obtain ⟨g1, ⟨m1, rfl⟩, g3⟩ := discoverNested_inv h h1
      obtain ⟨k1, ⟨m2, rfl⟩, k3⟩ := discoverDown_inv g1 hd
      refine ⟨k1, ⟨m1 ++ m2, by simp⟩, ?_⟩
      intro q hq d hdm hne ht
      rcases List.mem_cons.mp hq with rfl | hq
      · rw [List.map_append]; exact List.mem_append_left _ (g3 d hdm hne ht)
      · exact k3 q hq d hdm hne ht

/-- What is discovered: only directories with a valid configuration, each once, and all that matter. -/
theorem discover_inv {S} {fs : ConfigFs S} {paths : List DPath} {items : List (DPath × S)}
    (h : discoverSettings fs paths = some items) :
    DownInv fs items ∧ (∀ p ∈ paths, OutsideUserDir fs p → ∀ d, Nearest fs d p → d ∈ items.map Prod.fst) ∧
      ∀ p ∈ paths, ∀ d ∈ fs.walk p, d ≠ p → fs.toml d ≠ none → d ∈ items.map Prod.fst := by
  unfold discoverSettings at h
  split at h
  · cases h
  · rename_i acc h1
    obtain ⟨seen, g1, -, g3⟩ := discoverUp_inv ⟨(by simp), (by simp), (by simp)⟩ h1
    obtain ⟨k1, ⟨more, rfl⟩, k3⟩ := discoverDown_inv ⟨fun x hx => (g1.valid x hx).1, g1.nodup⟩ h
    refine ⟨k1, ?_, k3⟩
    intro p hp ho d hn
    rw [List.map_append]
    exact List.mem_append_left _ (g1.closed p (g3 p hp) ho d hn)

/-! ## Resolution -/

theorem resolve_snoc {S} (items : List (DPath × S)) (p : DPath) (x : Str) :
    resolvePath items (p ++ [x]) =
      match items.find? (fun y => y.1 = p ++ [x]) with
      | some y => some y
      | none => resolvePath items p := by
  unfold resolvePath
  rw [ancestors_snoc, List.findSome?_cons]
  cases List.find? (fun y => decide (y.1 = p ++ [x])) items <;> rfl

theorem find_none {S} {items : List (DPath × S)} {d : DPath} (h : d ∉ items.map Prod.fst) :
    items.find? (fun y => y.1 = d) = none := by
  rw [List.find?_eq_none]
  intro y hy hc
  simp only [decide_eq_true_eq] at hc
  exact h (List.mem_map.mpr ⟨y, hy, hc⟩)

theorem find_some {S} {fs : ConfigFs S} {items : List (DPath × S)} (hi : DownInv fs items) {d : DPath}
    (h : d ∈ items.map Prod.fst) : ∃ s, items.find? (fun y => y.1 = d) = some (d, s) ∧ fs.toml d = some (some s) := by
  cases hf : items.find? (fun y => y.1 = d) with
  | none =>
    rw [List.find?_eq_none] at hf
    obtain ⟨y, hy, rfl⟩ := List.mem_map.mp h
    exact absurd (by simp) (hf y hy)
  | some y =>
    have h1 := List.find?_some hf
    have h2 := List.mem_of_find?_eq_some hf
    simp only [decide_eq_true_eq] at h1
    obtain ⟨a, s⟩ := y
    subst h1
    exact ⟨s, rfl, hi.valid _ h2⟩

theorem not_mem_of_none {S} {fs : ConfigFs S} {items : List (DPath × S)} (hi : DownInv fs items) {d : DPath}
    (h : fs.toml d = none) : d ∉ items.map Prod.fst := by
  intro hm
  obtain ⟨y, hy, rfl⟩ := List.mem_map.mp hm
  rw [hi.valid y hy] at h
  cases h

theorem resolve_none {S} {fs : ConfigFs S} {items : List (DPath × S)} (hi : DownInv fs items) (f : DPath) :
    NoConfigAbove fs f → resolvePath items f = none := by
  refine snoc_ind (P := fun f => NoConfigAbove fs f → resolvePath items f = none) ?_ ?_ f
  · intro h
    unfold resolvePath
    rw [ancestors_nil, List.findSome?_cons, find_none (not_mem_of_none hi (h [] (List.prefix_refl _)))]
    rfl
  · intro p x ih h
    rw [resolve_snoc, find_none (not_mem_of_none hi (h _ (List.prefix_refl _)))]
    exact ih (fun e he => h e (prefix_snoc.mpr (.inr he)))

theorem resolve_some {S} {fs : ConfigFs S} {items : List (DPath × S)} (hi : DownInv fs items) {d : DPath}
    (hm : d ∈ items.map Prod.fst) (f : DPath) :
    Nearest fs d f → ∃ s, resolvePath items f = some (d, s) ∧ fs.toml d = some (some s) := by
  obtain ⟨s, hs, ht⟩ := find_some hi hm
  refine snoc_ind (P := fun f => Nearest fs d f → ∃ s, resolvePath items f = some (d, s) ∧ fs.toml d = some (some s)) ?_ ?_ f
  · intro h
    have : d = [] := by simpa using h.1
    subst this
    refine ⟨s, ?_, ht⟩
    unfold resolvePath
    rw [ancestors_nil, List.findSome?_cons, hs]
  · intro p x ih h
    by_cases e : d = p ++ [x]
    · subst e
      exact ⟨s, by rw [resolve_snoc, hs], ht⟩
    · have hn : fs.toml (p ++ [x]) = none := by
        cases hc : fs.toml (p ++ [x]) with
        | none => rfl
        | some y =>
          exfalso
          have h1 := h.2.2 (p ++ [x]) (List.prefix_refl _) (by rw [hc]; simp)
          rcases prefix_snoc.mp h.1 with h2 | h2
          · exact e h2
          · have := h2.length_le; simp at h1; omega
      obtain ⟨s', h1, h2⟩ := ih (nearest_snoc hn h)
      refine ⟨s', ?_, h2⟩
      rw [resolve_snoc, find_none (not_mem_of_none hi hn)]
      exact h1

theorem nearest_of_prefix {S} {fs : ConfigFs S} {d p f : DPath} (h : Nearest fs d f) (hd : d <+: p) (hp : p <+: f) :
    Nearest fs d p :=
  ⟨hd, h.2.1, fun e he ht => h.2.2 e (he.trans hp) ht⟩

/-- **C47.** Whatever the paths given and their order: a file found under one of them is checked with the settings of the nearest
configuration file above it, and with the default settings if there is none. (Files inside the user's configuration
directory aside.) -/
theorem C47_nearest_config {S} (fs : ConfigFs S) (paths : List DPath) (items : List (DPath × S)) (p f : DPath)
    (h : discoverSettings fs paths = some items) (hp : p ∈ paths) (hf : FoundUnder fs p f) (ho : OutsideUserDir fs p) :
    (∀ d, Nearest fs d f → ∃ s, resolvePath items f = some (d, s) ∧ fs.toml d = some (some s)) ∧
    (NoConfigAbove fs f → resolvePath items f = none) := by
  obtain ⟨hi, h1, h2⟩ := discover_inv h
  refine ⟨?_, resolve_none hi f⟩
  intro d hd
  refine resolve_some hi ?_ f hd
  rcases List.prefix_or_prefix_of_prefix hd.1 hf.1 with hdp | hpd
  · exact h1 p hp ho d (nearest_of_prefix hd hdp hf.1)
  · by_cases e : d = p
    · exact h1 p hp ho d (nearest_of_prefix hd (by rw [e]; exact List.prefix_refl _) hf.1)
    · exact h2 p hp d (hf.2 d hpd e hd.1 hd.2.1) e hd.2.1

theorem config_above {S} (fs : ConfigFs S) (f : DPath) : (∃ d, Nearest fs d f) ∨ NoConfigAbove fs f := by
  refine snoc_ind (P := fun f => (∃ d, Nearest fs d f) ∨ NoConfigAbove fs f) ?_ ?_ f
  · cases ht : fs.toml [] with
    | none => right; intro e he; have : e = [] := by simpa using he
              subst this; exact ht
    | some y => left; exact ⟨[], List.prefix_refl _, (by rw [ht]; simp), fun e he _ => he.length_le⟩
  · intro q x ih
    cases ht : fs.toml (q ++ [x]) with
    | some y => left; exact ⟨q ++ [x], List.prefix_refl _, (by rw [ht]; simp), fun e he _ => he.length_le⟩
    | none =>
      rcases ih with ⟨d, hd⟩ | hn
      · left
        refine ⟨d, hd.1.trans (List.prefix_append _ _), hd.2.1, fun e he hte => ?_⟩
        rcases prefix_snoc.mp he with rfl | he
        · exact absurd ht hte
        · exact hd.2.2 e he hte
      · right
        intro e he
        rcases prefix_snoc.mp he with rfl | he
        · exact ht
        · exact hn e he

/-- **C47** (order). The settings used for a file do not depend on the order of the paths on the command line. -/
theorem C47_argument_order {S} (fs : ConfigFs S) (paths paths' : List DPath) (items items' : List (DPath × S)) (p f : DPath)
    (hperm : paths.Perm paths') (h : discoverSettings fs paths = some items) (h' : discoverSettings fs paths' = some items')
    (hp : p ∈ paths) (hf : FoundUnder fs p f) (ho : OutsideUserDir fs p) :
    resolvePath items f = resolvePath items' f := by
  obtain ⟨a1, a2⟩ := C47_nearest_config fs paths items p f h hp hf ho
  obtain ⟨b1, b2⟩ := C47_nearest_config fs paths' items' p f h' (hperm.mem_iff.mp hp) hf ho
  have hex := config_above fs f
  rcases hex with ⟨d, hd⟩ | hn
  · obtain ⟨s, hs, ht⟩ := a1 d hd
    obtain ⟨s', hs', ht'⟩ := b1 d hd
    rw [ht] at ht'
    cases ht'
    rw [hs, hs']
  · rw [a2 hn, b2 hn]

/-! ## Grouping -/

theorem resolve_find {S} (items : List (DPath × S)) (f : DPath) (x : DPath × S) (h : resolvePath items f = some x) :
    items.find? (fun y => y.1 = x.1) = some x := by
  unfold resolvePath at h
  obtain ⟨a, -, ha⟩ := List.exists_of_findSome?_eq_some h
  have h1 := List.find?_some ha
  simp only [decide_eq_true_eq] at h1
  rw [h1]
  exact ha

theorem checkedWith_add {S} (items : List (DPath × S)) (key : Option DPath) (f : DPath) :
    ∀ gs, (checkedWith items (addToGroup key f gs)).Perm (checkedWith items gs ++ [(f, groupSettings items key)])
  | [] => by simp [checkedWith, addToGroup]
  | (k, fs) :: gs => by
    unfold addToGroup
    split
    · rename_i e
      subst e
      simp only [checkedWith, List.flatMap_cons, List.map_append, List.map_cons, List.map_nil, List.append_assoc]
      exact List.Perm.append_left _ List.perm_append_comm
    · have ih := checkedWith_add items key f gs
      simp only [checkedWith, List.flatMap_cons, List.append_assoc] at ih ⊢
      exact List.Perm.append_left _ ih

theorem checkedWith_perm {S} (items : List (DPath × S)) {g g' : List (Option DPath × List DPath)} (h : g.Perm g') :
    (checkedWith items g).Perm (checkedWith items g') := by
  unfold checkedWith
  exact h.flatMap_right _

theorem checkedWith_fold {S} (items : List (DPath × S)) : ∀ (files : List DPath) gs,
    (checkedWith items (files.foldl (fun gs f => addToGroup ((resolvePath items f).map Prod.fst) f gs) gs)).Perm
      (checkedWith items gs ++ files.map (fun f => (f, (resolvePath items f).map Prod.snd)))
  | [], gs => by simp
  | f :: files, gs => by
    simp only [List.foldl_cons, List.map_cons]
    refine (checkedWith_fold items files _).trans ?_
    have hs : groupSettings items ((resolvePath items f).map Prod.fst) = (resolvePath items f).map Prod.snd := by
      cases h : resolvePath items f with
      | none => rfl
      | some x => simp only [Option.map_some, groupSettings, resolve_find items f x h]
    have := (checkedWith_add items ((resolvePath items f).map Prod.fst) f gs).append_right
      (files.map (fun f => (f, (resolvePath items f).map Prod.snd)))
    rw [hs] at this
    simpa using this

/-- **C47** (grouping). Whatever the order in which the groups are processed, every file is checked exactly once, with the
settings found for it. -/
theorem C47_each_file_once {S} (items : List (DPath × S)) (files : List DPath) (groups : List (Option DPath × List DPath))
    (h : groups.Perm (groupFiles items files)) :
    (checkedWith items groups).Perm (files.map (fun f => (f, (resolvePath items f).map Prod.snd))) := by
  refine (checkedWith_perm items h).trans ?_
  have := checkedWith_fold items files []
  simpa [checkedWith, groupFiles] using this

/-! ## The user's configuration -/

theorem walkDirs_none {S} {fs : ConfigFs S} (f : DPath) : ∀ seen, NoConfigAbove fs f →
    (∀ a ∈ seen, ¬ a <+: f) →
    ∃ seen', walkDirs fs (ancestors f) seen = some (seen', none) ∧ ∀ a ∈ seen', a ∈ seen ∨ a <+: f := by
  refine snoc_ind (P := fun f => ∀ seen, NoConfigAbove fs f → (∀ a ∈ seen, ¬ a <+: f) →
    ∃ seen', walkDirs fs (ancestors f) seen = some (seen', none) ∧ ∀ a ∈ seen', a ∈ seen ∨ a <+: f) ?_ ?_ f
  · intro seen h hs
    rw [ancestors_nil]
    have h0 : ([] : DPath) ∉ seen := fun hm => hs _ hm (List.prefix_refl _)
    refine ⟨[] :: seen, ?_, ?_⟩
    · simp only [walkDirs, h0, if_false, h [] (List.prefix_refl _)]
      split <;> rfl
    · intro a ha
      rcases List.mem_cons.mp ha with rfl | ha
      · exact .inr (List.prefix_refl _)
      · exact .inl ha
  · intro p x ih seen h hs
    rw [ancestors_snoc]
    have h0 : (p ++ [x]) ∉ seen := fun hm => hs _ hm (List.prefix_refl _)
    simp only [walkDirs, h0, if_false, h _ (List.prefix_refl _)]
    split
    · refine ⟨_, rfl, ?_⟩
      intro a ha
      rcases List.mem_cons.mp ha with rfl | ha
      · exact .inr (List.prefix_refl _)
      · exact .inl ha
    · obtain ⟨s1, g1, g2⟩ := ih ((p ++ [x]) :: seen) (fun e he => h e (prefix_snoc.mpr (.inr he))) (by
        intro a ha
        rcases List.mem_cons.mp ha with rfl | ha
        · exact not_prefix_longer
        · exact fun hc => hs a ha (prefix_snoc.mpr (.inr hc)))
      refine ⟨s1, g1, ?_⟩
      intro a ha
      rcases g2 a ha with hc | hc
      · rcases List.mem_cons.mp hc with rfl | hc
        · exact .inr (List.prefix_refl _)
        · exact .inl hc
      · exact .inr (prefix_snoc.mpr (.inr hc))

/-- **C47 is false of the user's configuration file.** The documentation says that the configuration in the user's configuration
directory applies to files without a configuration above them. `jarl check` never uses it for them; the editor
does. -/
theorem C47_false_user_config {S} (fs : ConfigFs S) (paths : List DPath) (items : List (DPath × S)) (f c : DPath) (s : S)
    (hu : fs.userDir = some c) (hc : fs.toml c = some (some s)) (hn : NoConfigAbove fs f) (hfile : fs.walk f = [])
    (h : discoverSettings fs paths = some items) :
    resolvePath items f = none ∧ editorSettings fs f = some (some s) := by
  refine ⟨resolve_none (discover_inv h).1 f hn, ?_⟩
  obtain ⟨s1, g1, g2⟩ := walkDirs_none f [] hn (by simp)
  have hcs : c ∉ s1 := by
    intro hm
    rcases g2 c hm with h1 | h1
    · cases h1
    · rw [hn c h1] at hc; cases hc
  unfold editorSettings discoverSettings
  simp only [discoverUp, discoverOne, g1, userFallback, hu, hcs, if_false, hc, List.nil_append, discoverDown, hfile,
    discoverNested]
  rfl

theorem walkDirs_found {S} {fs : ConfigFs S} {d : DPath} {s : S} (hd : fs.toml d = some (some s)) (f : DPath) : ∀ seen,
    Nearest fs d f → OutsideUserDir fs f → (∀ a ∈ seen, ¬ a <+: f) →
    ∃ seen', walkDirs fs (ancestors f) seen = some (seen', some (d, s)) := by
  refine snoc_ind (P := fun f => ∀ seen, Nearest fs d f → OutsideUserDir fs f → (∀ a ∈ seen, ¬ a <+: f) →
    ∃ seen', walkDirs fs (ancestors f) seen = some (seen', some (d, s))) ?_ ?_ f
  · intro seen h ho hs
    have : d = [] := by simpa using h.1
    subst this
    have h0 : ([] : DPath) ∉ seen := fun hm => hs _ hm (List.prefix_refl _)
    rw [ancestors_nil]
    exact ⟨[] :: seen, by simp only [walkDirs, h0, if_false, hd]⟩
  · intro p x ih seen h ho hs
    have h0 : (p ++ [x]) ∉ seen := fun hm => hs _ hm (List.prefix_refl _)
    rw [ancestors_snoc]
    by_cases e : d = p ++ [x]
    · subst e
      exact ⟨(p ++ [x]) :: seen, by simp only [walkDirs, h0, if_false, hd]⟩
    · have hn : fs.toml (p ++ [x]) = none := by
        cases hc : fs.toml (p ++ [x]) with
        | none => rfl
        | some y =>
          exfalso
          have h1 := h.2.2 (p ++ [x]) (List.prefix_refl _) (by rw [hc]; simp)
          rcases prefix_snoc.mp h.1 with h2 | h2
          · exact e h2
          · have := h2.length_le; simp at h1; omega
      have hu : fs.userDir ≠ some (p ++ [x]) := fun hu => ho _ hu (List.prefix_refl _)
      obtain ⟨s1, g1⟩ := ih ((p ++ [x]) :: seen) (nearest_snoc hn h) (outside_prefix ho (List.prefix_append _ _)) (by
        intro a ha
        rcases List.mem_cons.mp ha with rfl | ha
        · exact not_prefix_longer
        · exact fun hc => hs a ha (prefix_snoc.mpr (.inr hc)))
      exact ⟨s1, by simp only [walkDirs, h0, if_false, hn, hu]; exact g1⟩

/-- **C47** (editor). In the editor the nearest configuration file above a file is used too. -/
theorem C47_editor {S} (fs : ConfigFs S) (f d : DPath) (s : S) (hd : fs.toml d = some (some s)) (hn : Nearest fs d f)
    (ho : OutsideUserDir fs f) (hfile : fs.walk f = []) : editorSettings fs f = some (some s) := by
  obtain ⟨s1, g1⟩ := walkDirs_found hd f [] hn ho (by simp)
  unfold editorSettings discoverSettings
  simp only [discoverUp, discoverOne, g1, List.nil_append, discoverDown, hfile, discoverNested]
  rfl

/-- A walk that reaches a visited directory finds nothing. -/
theorem walkDirs_seen {S} {fs : ConfigFs S} {d : DPath} (f : DPath) : ∀ seen,
    Nearest fs d f → OutsideUserDir fs f → d ∈ seen →
    ∃ seen', walkDirs fs (ancestors f) seen = some (seen', none) ∧ ∀ a ∈ seen', a ∈ seen ∨ a <+: f := by
  refine snoc_ind (P := fun f => ∀ seen, Nearest fs d f → OutsideUserDir fs f → d ∈ seen →
    ∃ seen', walkDirs fs (ancestors f) seen = some (seen', none) ∧ ∀ a ∈ seen', a ∈ seen ∨ a <+: f) ?_ ?_ f
  · intro seen h ho hs
    have : d = [] := by simpa using h.1
    subst this
    rw [ancestors_nil]
    exact ⟨seen, by simp only [walkDirs, hs, if_true], fun a ha => .inl ha⟩
  · intro p x ih seen h ho hs
    rw [ancestors_snoc]
    by_cases h0 : (p ++ [x]) ∈ seen
    · exact ⟨seen, by simp only [walkDirs, h0, if_true], fun a ha => .inl ha⟩
    · have e : d ≠ p ++ [x] := fun e => h0 (e ▸ hs)
      have hn : fs.toml (p ++ [x]) = none := by
        cases hc : fs.toml (p ++ [x]) with
        | none => rfl
        | some y =>
          exfalso
          have h1 := h.2.2 (p ++ [x]) (List.prefix_refl _) (by rw [hc]; simp)
          rcases prefix_snoc.mp h.1 with h2 | h2
          · exact e h2
          · have := h2.length_le; simp at h1; omega
      have hu : fs.userDir ≠ some (p ++ [x]) := fun hu => ho _ hu (List.prefix_refl _)
      obtain ⟨s1, g1, g2⟩ := ih ((p ++ [x]) :: seen) (nearest_snoc hn h) (outside_prefix ho (List.prefix_append _ _))
        (List.mem_cons_of_mem _ hs)
      refine ⟨s1, by simp only [walkDirs, h0, if_false, hn, hu]; exact g1, ?_⟩
      intro a ha
      rcases g2 a ha with hc | hc
      · rcases List.mem_cons.mp hc with rfl | hc
        · exact .inr (List.prefix_refl _)
        · exact .inl hc
      · exact .inr (prefix_snoc.mpr (.inr hc))

theorem walkDirs_seen_sub {S} {fs : ConfigFs S} (f : DPath) : ∀ seen seen' r,
    walkDirs fs (ancestors f) seen = some (seen', r) → ∀ a ∈ seen', a ∈ seen ∨ a <+: f := by
  refine snoc_ind (P := fun f => ∀ seen seen' r,
    walkDirs fs (ancestors f) seen = some (seen', r) → ∀ a ∈ seen', a ∈ seen ∨ a <+: f) ?_ ?_ f
  · intro seen seen' r h a ha
    rw [ancestors_nil] at h
    simp only [walkDirs] at h
    split at h
    · cases h; exact .inl ha
    · have : seen' = [] :: seen := by
        split at h
        · cases h; rfl
        · cases h
        · split at h <;> cases h <;> rfl
      subst this
      rcases List.mem_cons.mp ha with rfl | ha
      · exact .inr (List.prefix_refl _)
      · exact .inl ha
  · intro p x ih seen seen' r h a ha
    rw [ancestors_snoc] at h
    simp only [walkDirs] at h
    have done : seen' = (p ++ [x]) :: seen → a ∈ seen ∨ a <+: p ++ [x] := by
      intro e; subst e
      rcases List.mem_cons.mp ha with rfl | ha
      · exact .inr (List.prefix_refl _)
      · exact .inl ha
    split at h
    · cases h; exact .inl ha
    · split at h
      · cases h; exact done rfl
      · cases h
      · split at h
        · cases h; exact done rfl
        · rcases ih _ _ _ h a ha with hc | hc
          · rcases List.mem_cons.mp hc with rfl | hc
            · exact .inr (List.prefix_refl _)
            · exact .inl hc
          · exact .inr (prefix_snoc.mpr (.inr hc))

/-- **C47 is false of the fallback**: when two files of the same project are given, the user's configuration is loaded too,
although both files have a configuration above them: if it is invalid nothing is checked, and otherwise it takes part in
the decision to hide `unused_function` reports (C29). -/
theorem C47_false_user_config_loaded {S} (fs : ConfigFs S) (p q d c : DPath) (s t : S) (hd : fs.toml d = some (some s))
    (hp : Nearest fs d p) (hq : Nearest fs d q) (hop : OutsideUserDir fs p) (hoq : OutsideUserDir fs q)
    (hu : fs.userDir = some c) (hwp : fs.walk p = []) (hwq : fs.walk q = []) :
    (fs.toml c = some (some t) → discoverSettings fs [p, q] = some [(d, s), (c, t)]) ∧
    (fs.toml c = some none → discoverSettings fs [p, q] = none ∧ discoverSettings fs [p] = some [(d, s)]) := by
  obtain ⟨s1, g1⟩ := walkDirs_found hd p [] hp hop (by simp)
  obtain ⟨-, -, g3, -⟩ := walkDirs_spec fs p _ _ _ g1
  obtain ⟨s2, k1, k2⟩ := walkDirs_seen q s1 hq hoq (g3 (d, s) rfl).2.1
  have hcs : c ∉ s2 := by
    intro hm
    rcases k2 c hm with h1 | h1
    · rcases walkDirs_seen_sub p _ _ _ g1 c h1 with h2 | h2
      · cases h2
      · exact hop c hu h2
    · exact hoq c hu h1
  constructor
  · intro hc
    unfold discoverSettings
    simp only [discoverUp, discoverOne, g1, k1, userFallback, hu, hcs, if_false, hc, List.nil_append, discoverDown, hwp, hwq,
      discoverNested]
    rfl
  · intro hc
    constructor
    · unfold discoverSettings
      simp only [discoverUp, discoverOne, g1, k1, userFallback, hu, hcs, if_false, hc]
    · unfold discoverSettings
      simp only [discoverUp, discoverOne, g1, List.nil_append, discoverDown, hwp, discoverNested]

/-! ## A concrete file system -/

def exFs : ConfigFs Nat where
  toml d := if d = [['p']] then some (some 1) else if d = [['p'], ['s']] then some (some 2)
    else if d = [['u']] then some (some 9) else none
  userDir := some [['u']]
  walk d := if d = [['p']] then [[['p']], [['p'], ['R']], [['p'], ['s']]] else []

/-- `jarl check p q/x.R`: nested settings, project settings, no settings. -/
example : discoverSettings exFs [[['p']], [['q'], ['x']]] = some [([['p']], 1), ([['u']], 9), ([['p'], ['s']], 2)] ∧
    resolvePath [([['p']], 1), ([['u']], 9), ([['p'], ['s']], 2)] [['p'], ['s'], ['f']] = some ([['p'], ['s']], 2) ∧
    resolvePath [([['p']], 1), ([['u']], 9), ([['p'], ['s']], 2)] [['p'], ['R'], ['f']] = some ([['p']], 1) ∧
    resolvePath [([['p']], 1), ([['u']], 9), ([['p'], ['s']], 2)] [['q'], ['x']] = none := by decide

/-- The hypotheses of C47_nearest_config are met. -/
example : Nearest exFs [['p'], ['s']] [['p'], ['s'], ['f']] ∧ FoundUnder exFs [['p']] [['p'], ['s'], ['f']] ∧
    OutsideUserDir exFs [['p']] := by
  refine ⟨⟨⟨[['f']], rfl⟩, by decide, ?_⟩, ⟨⟨[['s'], ['f']], rfl⟩, ?_⟩, ?_⟩
  · intro e he ht
    have h3 := he.length_le
    simp only [List.length_cons, List.length_nil] at h3
    by_cases hl : e.length = 3
    · have := he.eq_of_length hl
      subst this
      exact absurd rfl ht
    · simp only [List.length_cons, List.length_nil]; omega
  · intro e hpe _ _ ht
    simp only [exFs] at ht ⊢
    split at ht
    · simp_all
    · split at ht
      · simp_all
      · split at ht
        · rename_i hu
          subst hu
          exact absurd hpe (by decide)
        · exact absurd rfl ht
  · intro c hc
    simp only [exFs, Option.some.injEq] at hc
    subst hc
    decide

end Jarl

import Verif.Lemmas.Suppression
namespace Jarl
open Spec

/-! What each visit adds to each list of the collector. -/

def nodeOf : Visit → Option NodeSuppression
  | .comment c nr _ false _ =>
    match parseCommentDirective c.text with
    | some (.valid (.ignore r)) => some ⟨nr, r, c.range⟩
    | _ => none
  | _ => none

def fileOf : Visit → Option (Rule × Range)
  | .comment c _ true false _ =>
    match parseCommentDirective c.text with
    | some (.valid (.ignoreFile r)) => some (r, c.range)
    | _ => none
  | _ => none

/-- The start (`true`) and end (`false`) comments of a rule at a nesting level. -/
def regionEvent (k : Rule × Nat) : Visit → Option (Bool × Range)
  | .comment c _ _ false level =>
    match parseCommentDirective c.text with
    | some (.valid (.ignoreStart r)) => if (r, level) = k then some (true, c.range) else none
    | some (.valid (.ignoreEnd r)) => if (r, level) = k then some (false, c.range) else none
    | _ => none
  | _ => none

def misplacedFileOf : Visit → Option Range
  | .comment c _ false false _ =>
    match parseCommentDirective c.text with
    | some (.valid (.ignoreFile _)) => some c.range
    | _ => none
  | _ => none

def chunkOf : Visit → Option (Rule × Range)
  | .item (.valid (.ignoreChunk r)) range => some (r, range)
  | _ => none

def misplacedOf : Visit → Option Range
  | .comment c _ _ true _ => (parseCommentDirective c.text).map (fun _ => c.range)
  | _ => none

def blanketOf : Visit → Option Range
  | .comment c _ _ false _ => if parseCommentDirective c.text = some .blanket then some c.range else none
  | .emptyHeader r => some r
  | _ => none

def unexplainedOf : Visit → Option Range
  | .comment c _ _ false _ => if parseCommentDirective c.text = some .missingExplanation then some c.range else none
  | .item .missingExplanation r => some r
  | _ => none

def misnamedOf : Visit → Option Range
  | .comment c _ _ false _ => if parseCommentDirective c.text = some .invalidRuleName then some c.range else none
  | .item .invalidRuleName r => some r
  | _ => none

def invalidChunkOf : Visit → Option Range
  | .comment c _ _ false _ =>
    match parseCommentDirective c.text with
    | some (.valid (.ignoreChunk _)) => some c.range
    | _ => none
  | _ => none

def validOf : Visit → Bool
  | .comment c _ _ false _ =>
    match parseCommentDirective c.text with
    | some (.valid _) => true
    | _ => false
  | .item (.valid (.ignoreChunk _)) _ => true
  | _ => false

structure StepFields (col col' : Collector) (v : Visit) : Prop where
  node : col'.node = col.node ++ (nodeOf v).toList
  file : col'.file = col.file ++ (fileOf v).toList
  misplacedFile : col'.misplacedFile = col.misplacedFile ++ (misplacedFileOf v).toList
  chunk : col'.chunk = col.chunk ++ (chunkOf v).toList
  misplaced : col'.misplaced = col.misplaced ++ (misplacedOf v).toList
  blanket : col'.blanket = col.blanket ++ (blanketOf v).toList
  unexplained : col'.unexplained = col.unexplained ++ (unexplainedOf v).toList
  misnamed : col'.misnamed = col.misnamed ++ (misnamedOf v).toList
  invalidChunk : col'.invalidChunk = col.invalidChunk ++ (invalidChunkOf v).toList
  valid : col'.hasValid = (col.hasValid || validOf v)

theorem step_fields {col col' : Collector} {v : Visit} (h : applyVisit col v = some col') : StepFields col col' v := by
  unfold applyVisit at h
  split at h
  · rename_i c nr af tr lv
    unfold processComment at h
    cases hp : parseCommentDirective c.text with
    | none =>
      rw [hp] at h; cases h
      cases tr <;> cases af <;> constructor <;>
        simp [nodeOf, fileOf, misplacedFileOf, chunkOf, misplacedOf, blanketOf, unexplainedOf, misnamedOf, invalidChunkOf, validOf, hp]
    | some x =>
      rw [hp] at h
      cases x with
      | valid d =>
        cases tr with
        | true =>
          simp only [if_true] at h; cases h
          cases af <;> constructor <;>
            simp [nodeOf, fileOf, misplacedFileOf, chunkOf, misplacedOf, blanketOf, unexplainedOf, misnamedOf, invalidChunkOf, validOf, hp]
        | false =>
          simp only [Bool.false_eq_true, if_false] at h
          unfold applyDirective at h
          cases d with
          | ignoreEnd r =>
            simp only at h
            split at h
            · split at h
              · cases h
              · cases h
                cases af <;> constructor <;>
                  simp [nodeOf, fileOf, misplacedFileOf, chunkOf, misplacedOf, blanketOf, unexplainedOf, misnamedOf, invalidChunkOf, validOf, hp]
            · cases h
              cases af <;> constructor <;>
                simp [nodeOf, fileOf, misplacedFileOf, chunkOf, misplacedOf, blanketOf, unexplainedOf, misnamedOf, invalidChunkOf, validOf, hp]
          | ignoreFile r =>
            cases af <;> simp only [Bool.false_eq_true, if_true, if_false] at h <;> cases h <;> constructor <;>
              simp [nodeOf, fileOf, misplacedFileOf, chunkOf, misplacedOf, blanketOf, unexplainedOf, misnamedOf, invalidChunkOf, validOf, hp]
          | _ =>
            cases h
            cases af <;> constructor <;>
              simp [nodeOf, fileOf, misplacedFileOf, chunkOf, misplacedOf, blanketOf, unexplainedOf, misnamedOf, invalidChunkOf, validOf, hp]
      | _ =>
        cases tr <;> simp only [Bool.false_eq_true, if_true, if_false] at h <;> cases h <;> cases af <;> constructor <;>
          simp [nodeOf, fileOf, misplacedFileOf, chunkOf, misplacedOf, blanketOf, unexplainedOf, misnamedOf, invalidChunkOf, validOf, hp]
  all_goals
    cases h
    constructor <;>
      simp [nodeOf, fileOf, misplacedFileOf, chunkOf, misplacedOf, blanketOf, unexplainedOf, misnamedOf, invalidChunkOf, validOf] <;>
      (try split) <;> simp_all

structure RunFields (col col' : Collector) (vs : List Visit) : Prop where
  node : col'.node = col.node ++ vs.filterMap nodeOf
  file : col'.file = col.file ++ vs.filterMap fileOf
  misplacedFile : col'.misplacedFile = col.misplacedFile ++ vs.filterMap misplacedFileOf
  chunk : col'.chunk = col.chunk ++ vs.filterMap chunkOf
  misplaced : col'.misplaced = col.misplaced ++ vs.filterMap misplacedOf
  blanket : col'.blanket = col.blanket ++ vs.filterMap blanketOf
  unexplained : col'.unexplained = col.unexplained ++ vs.filterMap unexplainedOf
  misnamed : col'.misnamed = col.misnamed ++ vs.filterMap misnamedOf
  invalidChunk : col'.invalidChunk = col.invalidChunk ++ vs.filterMap invalidChunkOf
  valid : col'.hasValid = (col.hasValid || vs.any validOf)

theorem run_fields {col col' : Collector} {vs : List Visit} (h : runVisits col vs = some col') : RunFields col col' vs := by
  induction vs generalizing col with
  | nil => cases h; constructor <;> simp
  | cons v vs ih =>
    unfold runVisits at h
    split at h
    · cases h
    · rename_i col1 h1
      have s := step_fields h1
      have r := ih h
      have e : ∀ {α} (f : Visit → Option α), (v :: vs).filterMap f = (f v).toList ++ vs.filterMap f := by
        intro α f; cases hf : f v <;> simp [hf]
      constructor
      · rw [r.node, s.node, e, List.append_assoc]
      · rw [r.file, s.file, e, List.append_assoc]
      · rw [r.misplacedFile, s.misplacedFile, e, List.append_assoc]
      · rw [r.chunk, s.chunk, e, List.append_assoc]
      · rw [r.misplaced, s.misplaced, e, List.append_assoc]
      · rw [r.blanket, s.blanket, e, List.append_assoc]
      · rw [r.unexplained, s.unexplained, e, List.append_assoc]
      · rw [r.misnamed, s.misnamed, e, List.append_assoc]
      · rw [r.invalidChunk, s.invalidChunk, e, List.append_assoc]
      · rw [r.valid, s.valid, List.any_cons, Bool.or_assoc]

/-! ### Regions -/

theorem runVisits_append (col : Collector) (a b : List Visit) :
    runVisits col (a ++ b) = (runVisits col a).bind (fun c => runVisits c b) := by
  induction a generalizing col with
  | nil => rfl
  | cons v vs ih =>
    simp only [List.cons_append, runVisits]
    cases applyVisit col v with
    | none => rfl
    | some c => exact ih c

theorem runVisits_snoc (col : Collector) (a : List Visit) (v : Visit) :
    runVisits col (a ++ [v]) = (runVisits col a).bind (fun c => applyVisit c v) := by
  rw [runVisits_append]
  congr 1
  funext c
  simp only [runVisits]
  cases applyVisit c v <;> rfl

/-- What a visit does to the region state. -/
theorem step_region {col : Collector} {v : Visit} :
    (∃ k c, (∀ k', regionEvent k' v = if k = k' then some (true, c) else none) ∧
      ∃ col', applyVisit col v = some col' ∧ col'.starts = (k, c) :: eraseKey k col.starts ∧
        col'.regions = col.regions ∧ col'.unmatchedEnd = col.unmatchedEnd) ∨
    (∃ k c, (∀ k', regionEvent k' v = if k = k' then some (false, c) else none) ∧
      ((∃ a, getKey k col.starts = some a ∧
          ((c.stop < a.start ∧ applyVisit col v = none) ∨
           (a.start ≤ c.stop ∧ ∃ col', applyVisit col v = some col' ∧ col'.starts = eraseKey k col.starts ∧
             col'.regions = col.regions ++ [⟨⟨a.start, c.stop⟩, k.1, a⟩] ∧ col'.unmatchedEnd = col.unmatchedEnd))) ∨
       (getKey k col.starts = none ∧ ∃ col', applyVisit col v = some col' ∧ col'.starts = col.starts ∧
          col'.regions = col.regions ∧ col'.unmatchedEnd = col.unmatchedEnd ++ [c]))) ∨
    ((∀ k', regionEvent k' v = none) ∧
      ∃ col', applyVisit col v = some col' ∧ col'.starts = col.starts ∧ col'.regions = col.regions ∧
        col'.unmatchedEnd = col.unmatchedEnd) := by
  cases v with
  | emptyHeader r => exact .inr (.inr ⟨fun _ => rfl, _, rfl, rfl, rfl, rfl⟩)
  | item p r =>
    refine .inr (.inr ⟨fun _ => rfl, ?_⟩)
    cases p with
    | valid d => cases d <;> exact ⟨_, rfl, rfl, rfl, rfl⟩
    | _ => exact ⟨_, rfl, rfl, rfl, rfl⟩
  | comment c nr af tr lv =>
    simp only [applyVisit, processComment]
    cases hp : parseCommentDirective c.text with
    | none =>
      refine .inr (.inr ⟨fun k' => ?_, _, rfl, rfl, rfl, rfl⟩)
      cases tr <;> simp [regionEvent, hp]
    | some x =>
      cases tr with
      | true =>
        refine .inr (.inr ⟨fun k' => by simp [regionEvent], ?_⟩)
        cases x <;> exact ⟨_, rfl, rfl, rfl, rfl⟩
      | false =>
        cases x with
        | valid d =>
          simp only [Bool.false_eq_true, if_false]
          cases d with
          | ignoreStart r =>
            exact .inl ⟨(r, lv), c.range, fun k' => by simp [regionEvent, hp], _, rfl, rfl, rfl, rfl⟩
          | ignoreEnd r =>
            refine .inr (.inl ⟨(r, lv), c.range, fun k' => by simp [regionEvent, hp], ?_⟩)
            simp only [applyDirective]
            cases hk : getKey (r, lv) col.starts with
            | none => exact .inr ⟨rfl, _, rfl, rfl, rfl, rfl⟩
            | some a =>
              refine .inl ⟨a, rfl, ?_⟩
              simp only [Range.new]
              by_cases hle : a.start ≤ c.range.stop
              · simp only [if_pos hle]; exact .inr ⟨hle, _, rfl, rfl, rfl, rfl⟩
              · simp only [if_neg hle]; exact .inl ⟨by omega, trivial⟩
          | ignoreFile r =>
            refine .inr (.inr ⟨fun k' => by simp [regionEvent, hp], ?_⟩)
            cases af <;> exact ⟨_, rfl, rfl, rfl, rfl⟩
          | ignoreChunk r => exact .inr (.inr ⟨fun k' => by simp [regionEvent, hp], _, rfl, rfl, rfl, rfl⟩)
          | ignore r => exact .inr (.inr ⟨fun k' => by simp [regionEvent, hp], _, rfl, rfl, rfl, rfl⟩)
        | _ => exact .inr (.inr ⟨fun k' => by simp [regionEvent, hp], _, rfl, rfl, rfl, rfl⟩)

theorem getKey_erase {k k' : Rule × Nat} {l : List ((Rule × Nat) × Range)} :
    getKey k' (eraseKey k l) = if k = k' then none else getKey k' l := by
  unfold getKey eraseKey
  induction l with
  | nil => simp
  | cons p ps ih =>
    by_cases hk : p.1 = k
    · simp only [List.filter_cons, hk, ne_eq, not_true_eq_false, decide_false, Bool.false_eq_true, if_false, ih, List.find?_cons]
      by_cases hkk : k = k' <;> simp [hkk]
    · simp only [List.filter_cons, ne_eq, hk, not_false_eq_true, decide_true, if_true, List.find?_cons]
      by_cases hp : p.1 = k'
      · simp only [hp, decide_true]
        have : k ≠ k' := fun h => hk (by rw [hp, h])
        simp [this]
      · simp only [hp, decide_false]
        exact ih

theorem getKey_cons {k k' : Rule × Nat} {c : Range} {l : List ((Rule × Nat) × Range)} :
    getKey k' ((k, c) :: l) = if k = k' then some c else getKey k' l := by
  unfold getKey
  by_cases h : k = k' <;> simp [h]

/-- The keys of a list are distinct. -/
def KeysNodup (l : List ((Rule × Nat) × Range)) : Prop := (l.map (·.1)).Nodup

theorem mem_iff_getKey {l : List ((Rule × Nat) × Range)} (h : KeysNodup l) {k : Rule × Nat} {c : Range} :
    (k, c) ∈ l ↔ getKey k l = some c := by
  unfold KeysNodup at h
  induction l with
  | nil => simp [getKey]
  | cons p ps ih =>
    obtain ⟨pk, pc⟩ := p
    rw [List.map_cons, List.nodup_cons] at h
    rw [getKey_cons, List.mem_cons, ih h.2]
    by_cases hk : pk = k
    · subst hk
      rw [if_pos rfl]
      constructor
      · rintro (h' | h')
        · cases h'; rfl
        · exfalso
          have := (ih h.2).mpr h'
          exact h.1 (List.mem_map.mpr ⟨_, this, rfl⟩)
      · intro h'; cases h'; exact .inl rfl
    · rw [if_neg hk]
      constructor
      · rintro (h' | h')
        · cases h'; exact absurd rfl hk
        · exact h'
      · exact .inr

theorem keysNodup_erase {k} {l : List ((Rule × Nat) × Range)} (h : KeysNodup l) : KeysNodup (eraseKey k l) := by
  unfold KeysNodup eraseKey at *
  exact List.Nodup.sublist (List.Sublist.map _ List.filter_sublist) h

theorem keysNodup_cons_erase {k c} {l : List ((Rule × Nat) × Range)} (h : KeysNodup l) :
    KeysNodup ((k, c) :: eraseKey k l) := by
  unfold KeysNodup
  rw [List.map_cons, List.nodup_cons]
  refine ⟨?_, keysNodup_erase h⟩
  intro hm
  obtain ⟨p, hp, hpk⟩ := List.mem_map.mp hm
  unfold eraseKey at hp
  have := (List.mem_filter.mp hp).2
  simp at this
  exact this hpk

/-- The pending start of a key: the last event, if it is a start. -/
def pending (l : List (Bool × Range)) : Option Range :=
  match l.getLast? with
  | some (true, a) => some a
  | _ => none

theorem pending_eq {l : List (Bool × Range)} {a : Range} :
    pending l = some a ↔ ∃ pre, l = pre ++ [(true, a)] := by
  unfold pending
  rcases List.eq_nil_or_concat l with h | ⟨pre, x, h⟩
  · subst h; simp
  · rw [List.concat_eq_append] at h
    subst h
    rw [List.getLast?_concat]
    obtain ⟨b, r⟩ := x
    cases b <;> simp

theorem pair_snoc {α} {l pre post : List α} {x y z : α} (h : l ++ [z] = pre ++ x :: y :: post) :
    (∃ post', l = pre ++ x :: y :: post' ∧ post = post' ++ [z]) ∨ (post = [] ∧ y = z ∧ l = pre ++ [x]) := by
  rcases List.eq_nil_or_concat post with hp | ⟨p, w, hp⟩
  · subst hp
    right
    have : pre ++ [x, y] = (pre ++ [x]) ++ [y] := by simp
    rw [this] at h
    obtain ⟨h1, h2⟩ := List.append_inj' h rfl
    simp at h2
    exact ⟨rfl, h2.symm, h1⟩
  · rw [List.concat_eq_append] at hp
    subst hp
    left
    have : pre ++ x :: y :: (p ++ [w]) = (pre ++ x :: y :: p) ++ [w] := by simp
    rw [this] at h
    obtain ⟨h1, h2⟩ := List.append_inj' h rfl
    simp at h2
    exact ⟨p, h1, by rw [h2]⟩

theorem single_snoc {α} {l pre post : List α} {y z : α} (h : l ++ [z] = pre ++ y :: post) :
    (∃ post', l = pre ++ y :: post' ∧ post = post' ++ [z]) ∨ (post = [] ∧ y = z ∧ l = pre) := by
  rcases List.eq_nil_or_concat post with hp | ⟨p, w, hp⟩
  · subst hp
    right
    obtain ⟨h1, h2⟩ := List.append_inj' h rfl
    simp at h2
    exact ⟨rfl, h2.symm, h1⟩
  · rw [List.concat_eq_append] at hp
    subst hp
    left
    have : pre ++ y :: (p ++ [w]) = (pre ++ y :: p) ++ [w] := by simp
    rw [this] at h
    obtain ⟨h1, h2⟩ := List.append_inj' h rfl
    simp at h2
    exact ⟨p, h1, by rw [h2]⟩

/-- Events of a key in a list of visits. -/
def evs (k : Rule × Nat) (vs : List Visit) : List (Bool × Range) := vs.filterMap (regionEvent k)

theorem evs_snoc (k : Rule × Nat) (vs : List Visit) (v : Visit) :
    evs k (vs ++ [v]) = evs k vs ++ (regionEvent k v).toList := by
  unfold evs
  rw [List.filterMap_append]
  cases h : regionEvent k v <;> simp [h]

/-- The events hold a start `a` immediately followed by an end `b`. -/
def HasPair (l : List (Bool × Range)) (a b : Range) : Prop := ∃ pre post, l = pre ++ (true, a) :: (false, b) :: post

/-- The events hold an end `c` that does not follow a start. -/
def HasLoneEnd (l : List (Bool × Range)) (c : Range) : Prop :=
  ∃ pre post, l = pre ++ (false, c) :: post ∧ pending pre = none

theorem hasPair_snoc {l : List (Bool × Range)} {x : Bool × Range} {a b : Range} :
    HasPair (l ++ [x]) a b ↔ HasPair l a b ∨ (x = (false, b) ∧ pending l = some a) := by
  constructor
  · rintro ⟨pre, post, h⟩
    rcases pair_snoc h with ⟨p, h1, _⟩ | ⟨_, h2, h3⟩
    · exact .inl ⟨pre, p, h1⟩
    · exact .inr ⟨h2.symm, pending_eq.mpr ⟨pre, h3⟩⟩
  · rintro (⟨pre, post, h⟩ | ⟨rfl, h⟩)
    · exact ⟨pre, post ++ [x], by rw [h]; simp⟩
    · obtain ⟨pre, h⟩ := pending_eq.mp h
      exact ⟨pre, [], by rw [h]; simp⟩

theorem hasLoneEnd_snoc {l : List (Bool × Range)} {x : Bool × Range} {c : Range} :
    HasLoneEnd (l ++ [x]) c ↔ HasLoneEnd l c ∨ (x = (false, c) ∧ pending l = none) := by
  constructor
  · rintro ⟨pre, post, h, hp⟩
    rcases single_snoc h with ⟨p, h1, _⟩ | ⟨_, h2, h3⟩
    · exact .inl ⟨pre, p, h1, hp⟩
    · exact .inr ⟨h2.symm, by rw [h3]; exact hp⟩
  · rintro (⟨pre, post, h, hp⟩ | ⟨rfl, h⟩)
    · exact ⟨pre, post ++ [x], by rw [h]; simp, hp⟩
    · exact ⟨l, [], by simp, h⟩

theorem pending_snoc {l : List (Bool × Range)} {x : Bool × Range} :
    pending (l ++ [x]) = if x.1 then some x.2 else none := by
  unfold pending
  rw [List.getLast?_concat]
  obtain ⟨b, r⟩ := x
  cases b <;> rfl

structure RegionInv (vs : List Visit) (col : Collector) : Prop where
  nodup : KeysNodup col.starts
  starts : ∀ k, getKey k col.starts = pending (evs k vs)
  regions : ∀ reg, reg ∈ col.regions ↔ ∃ level a b, HasPair (evs (reg.rule, level) vs) a b ∧
    reg.range = ⟨a.start, b.stop⟩ ∧ reg.comment = a
  ends : ∀ c, c ∈ col.unmatchedEnd ↔ ∃ k, HasLoneEnd (evs k vs) c
  ordered : ∀ k a b, HasPair (evs k vs) a b → a.start ≤ b.stop

/-- The collector panics exactly on a region whose end lies before its start; otherwise it tracks the events. -/
theorem region_inv (vs : List Visit) :
    (∃ col, runVisits {} vs = some col ∧ RegionInv vs col) ∨
    (runVisits {} vs = none ∧ ∃ k a b, HasPair (evs k vs) a b ∧ b.stop < a.start) := by
  generalize hn : vs.length = n
  induction n generalizing vs with
  | zero =>
    have : vs = [] := List.eq_nil_of_length_eq_zero hn
    subst this
    refine .inl ⟨{}, rfl, by simp [KeysNodup], fun k => rfl, ?_, ?_, ?_⟩
    · intro reg; simp [evs, HasPair]
    · intro c; simp [evs, HasLoneEnd]
    · intro k a b ⟨pre, post, h⟩; simp [evs] at h
  | succ n ih =>
    rcases List.eq_nil_or_concat vs with h | ⟨ws, v, h⟩
    · subst h; simp at hn
    · rw [List.concat_eq_append] at h
      subst h
      have hlen : ws.length = n := by simpa using hn
      rw [runVisits_snoc]
      rcases ih ws hlen with ⟨col, hcol, inv⟩ | ⟨hnone, k, a, b, hp, hlt⟩
      · rw [hcol]
        simp only [Option.bind_some]
        rcases step_region (col := col) (v := v) with ⟨k, c, hev, col', h1, h2, h3, h4⟩ |
            ⟨k, c, hev, ⟨a, hk, ⟨hlt, hnone⟩ | ⟨hle, col', h1, h2, h3, h4⟩⟩ | ⟨hk, col', h1, h2, h3, h4⟩⟩ |
            ⟨hev, col', h1, h2, h3, h4⟩
        · -- a start
          left
          refine ⟨col', h1, ?_, ?_, ?_, ?_, ?_⟩
          · rw [h2]; exact keysNodup_cons_erase inv.nodup
          · intro k'
            rw [h2, getKey_cons, getKey_erase, evs_snoc, hev]
            by_cases hkk : k = k'
            · simp [hkk, pending_snoc]
            · simp [hkk, inv.starts]
          · intro reg
            rw [h3, inv.regions]
            constructor
            · rintro ⟨lv, a, b, hp, h⟩
              refine ⟨lv, a, b, ?_, h⟩
              rw [evs_snoc, hev]
              split
              · exact hasPair_snoc.mpr (.inl hp)
              · simpa using hp
            · rintro ⟨lv, a, b, hp, h⟩
              refine ⟨lv, a, b, ?_, h⟩
              rw [evs_snoc, hev] at hp
              split at hp
              · rcases hasPair_snoc.mp hp with hp | ⟨hx, _⟩
                · exact hp
                · cases hx
              · simpa using hp
          · intro x
            rw [h4, inv.ends]
            constructor
            · rintro ⟨k', hp⟩
              refine ⟨k', ?_⟩
              rw [evs_snoc, hev]
              split
              · exact hasLoneEnd_snoc.mpr (.inl hp)
              · simpa using hp
            · rintro ⟨k', hp⟩
              refine ⟨k', ?_⟩
              rw [evs_snoc, hev] at hp
              split at hp
              · rcases hasLoneEnd_snoc.mp hp with hp | ⟨hx, _⟩
                · exact hp
                · cases hx
              · simpa using hp
          · intro k' x y hp
            rw [evs_snoc, hev] at hp
            split at hp
            · rcases hasPair_snoc.mp hp with hp | ⟨hx, _⟩
              · exact inv.ordered _ _ _ hp
              · cases hx
            · exact inv.ordered k' x y (by simpa using hp)
        · -- a panicking end
          right
          refine ⟨hnone, k, a, c, ?_, hlt⟩
          rw [evs_snoc, hev, if_pos rfl]
          exact hasPair_snoc.mpr (.inr ⟨rfl, by rw [← inv.starts, hk]⟩)
        · -- an end that closes a region
          left
          have hpk : pending (evs k ws) = some a := by rw [← inv.starts, hk]
          refine ⟨col', h1, ?_, ?_, ?_, ?_, ?_⟩
          · rw [h2]; exact keysNodup_erase inv.nodup
          · intro k'
            rw [h2, getKey_erase, evs_snoc, hev]
            by_cases hkk : k = k'
            · simp [hkk, pending_snoc]
            · simp [hkk, inv.starts]
          · intro reg
            rw [h3, List.mem_append, inv.regions, List.mem_singleton]
            constructor
            · rintro (⟨lv, x, y, hp, h⟩ | rfl)
              · refine ⟨lv, x, y, ?_, h⟩
                rw [evs_snoc, hev]
                split
                · exact hasPair_snoc.mpr (.inl hp)
                · simpa using hp
              · refine ⟨k.2, a, c, ?_, rfl, rfl⟩
                rw [evs_snoc, hev, if_pos rfl]
                exact hasPair_snoc.mpr (.inr ⟨rfl, hpk⟩)
            · rintro ⟨lv, x, y, hp, h⟩
              rw [evs_snoc, hev] at hp
              split at hp
              · rename_i hkk
                rcases hasPair_snoc.mp hp with hp | ⟨hx, hpend⟩
                · exact .inl ⟨lv, x, y, hp, h⟩
                · right
                  cases hx
                  rw [← hkk, hpk] at hpend
                  cases hpend
                  have hr : reg.rule = k.1 := by rw [hkk]
                  cases reg
                  simp only at h hr
                  obtain ⟨ha, hb⟩ := h
                  subst ha; subst hb; subst hr
                  rfl
              · exact .inl ⟨lv, x, y, by simpa using hp, h⟩
          · intro x
            rw [h4, inv.ends]
            constructor
            · rintro ⟨k', hp⟩
              refine ⟨k', ?_⟩
              rw [evs_snoc, hev]
              split
              · exact hasLoneEnd_snoc.mpr (.inl hp)
              · simpa using hp
            · rintro ⟨k', hp⟩
              refine ⟨k', ?_⟩
              rw [evs_snoc, hev] at hp
              split at hp
              · rename_i hkk
                rcases hasLoneEnd_snoc.mp hp with hp | ⟨hx, hpend⟩
                · exact hp
                · rw [← hkk, hpk] at hpend; cases hpend
              · simpa using hp
          · intro k' x y hp
            rw [evs_snoc, hev] at hp
            split at hp
            · rename_i hkk
              rcases hasPair_snoc.mp hp with hp | ⟨hx, hpend⟩
              · exact inv.ordered _ _ _ hp
              · cases hx
                rw [← hkk, hpk] at hpend
                cases hpend
                exact hle
            · exact inv.ordered k' x y (by simpa using hp)
        · -- a lone end
          left
          have hpk : pending (evs k ws) = none := by rw [← inv.starts, hk]
          refine ⟨col', h1, ?_, ?_, ?_, ?_, ?_⟩
          · rw [h2]; exact inv.nodup
          · intro k'
            rw [h2, evs_snoc, hev]
            by_cases hkk : k = k'
            · subst hkk; simp [pending_snoc, hk]
            · simp [hkk, inv.starts]
          · intro reg
            rw [h3, inv.regions]
            constructor
            · rintro ⟨lv, x, y, hp, h⟩
              refine ⟨lv, x, y, ?_, h⟩
              rw [evs_snoc, hev]
              split
              · exact hasPair_snoc.mpr (.inl hp)
              · simpa using hp
            · rintro ⟨lv, x, y, hp, h⟩
              refine ⟨lv, x, y, ?_, h⟩
              rw [evs_snoc, hev] at hp
              split at hp
              · rename_i hkk
                rcases hasPair_snoc.mp hp with hp | ⟨hx, hpend⟩
                · exact hp
                · rw [← hkk, hpk] at hpend; cases hpend
              · simpa using hp
          · intro x
            rw [h4, List.mem_append, inv.ends, List.mem_singleton]
            constructor
            · rintro (⟨k', hp⟩ | rfl)
              · refine ⟨k', ?_⟩
                rw [evs_snoc, hev]
                split
                · exact hasLoneEnd_snoc.mpr (.inl hp)
                · simpa using hp
              · refine ⟨k, ?_⟩
                rw [evs_snoc, hev, if_pos rfl]
                exact hasLoneEnd_snoc.mpr (.inr ⟨rfl, hpk⟩)
            · rintro ⟨k', hp⟩
              rw [evs_snoc, hev] at hp
              split at hp
              · rcases hasLoneEnd_snoc.mp hp with hp | ⟨hx, hpend⟩
                · exact .inl ⟨k', hp⟩
                · cases hx; exact .inr rfl
              · exact .inl ⟨k', by simpa using hp⟩
          · intro k' x y hp
            rw [evs_snoc, hev] at hp
            split at hp
            · rename_i hkk
              rcases hasPair_snoc.mp hp with hp | ⟨hx, hpend⟩
              · exact inv.ordered _ _ _ hp
              · rw [← hkk, hpk] at hpend; cases hpend
            · exact inv.ordered k' x y (by simpa using hp)
        · -- no event
          left
          have he : ∀ k', evs k' (ws ++ [v]) = evs k' ws := by intro k'; rw [evs_snoc, hev]; simp
          refine ⟨col', h1, by rw [h2]; exact inv.nodup, ?_, ?_, ?_, ?_⟩
          · intro k'; rw [h2, he, inv.starts]
          · intro reg; rw [h3, inv.regions]; simp only [he]
          · intro c; rw [h4, inv.ends]; simp only [he]
          · intro k' x y hp; rw [he] at hp; exact inv.ordered _ _ _ hp
      · right
        rw [hnone]
        refine ⟨rfl, k, a, b, ?_, hlt⟩
        rw [evs_snoc]
        cases regionEvent k v with
        | none => simpa using hp
        | some x => exact hasPair_snoc.mpr (.inl hp)

/-! ### The events in terms of the specification -/

open Classical in
/-- The event of a comment at a level. -/
noncomputable def specEvent (k : Rule × Nat) (c : Comment × Nat) : Option (Bool × Range) :=
  if c.2 = k.2 ∧ ValidComment c.1.text (.ignoreStart k.1) then some (true, c.1.range)
  else if c.2 = k.2 ∧ ValidComment c.1.text (.ignoreEnd k.1) then some (false, c.1.range)
  else none

theorem regionEvent_comment (k : Rule × Nat) (c : Comment) (nr : Range) (af : Bool) (lv : Nat) :
    regionEvent k (.comment c nr af false lv) = specEvent k (c, lv) := by
  unfold specEvent
  simp only [← C11_valid, regionEvent]
  obtain ⟨r, l⟩ := k
  cases hp : parseCommentDirective c.text with
  | none => simp
  | some x =>
    cases x with
    | valid d =>
      cases d <;> simp
      · rename_i r'
        by_cases h : r' = r ∧ lv = l
        · rw [if_pos h, if_pos ⟨h.2, h.1⟩]
        · rw [if_neg h, if_neg (fun h' => h ⟨h'.2, h'.1⟩)]
      · rename_i r'
        by_cases h : r' = r ∧ lv = l
        · rw [if_pos h, if_pos ⟨h.2, h.1⟩]
        · rw [if_neg h, if_neg (fun h' => h ⟨h'.2, h'.1⟩)]
    | _ => simp

theorem specEvent_none {k : Rule × Nat} {c : Comment} {lv : Nat}
    (h : ∀ d, parseCommentDirective c.text ≠ some (.valid d)) : specEvent k (c, lv) = none := by
  unfold specEvent
  simp only [← C11_valid]
  rw [if_neg (fun h' => h _ h'.2), if_neg (fun h' => h _ h'.2)]

theorem flushHeader_events (k : Rule × Nat) (st : Option (Range × Bool)) :
    (flushHeader st).filterMap (regionEvent k) = [] := by
  rcases st with _ | ⟨h, _ | _⟩ <;> simp [flushHeader, regionEvent]

theorem leading_events (k : Rule × Nat) (nr : Range) (first : Bool) (level : Nat) (st : Option (Range × Bool))
    (cs : List Comment) :
    (leadingVisits nr first level st cs).filterMap (regionEvent k) =
      (cs.map (fun c => (c, level))).filterMap (specEvent k) := by
  induction cs generalizing st with
  | nil => simp only [leadingVisits]; rw [flushHeader_events]; rfl
  | cons c cs ih =>
    have hrest : ∀ (b : Bool), b = isQuartoHeader c.text →
        ((if b then leadingVisits nr first level (some (c.range, false)) cs
          else .comment c nr first false level :: leadingVisits nr first level none cs)).filterMap (regionEvent k) =
        (((c :: cs).map (fun c => (c, level))).filterMap (specEvent k)) := by
      intro b hb
      cases b with
      | true =>
        have := header_parse hb.symm
        rw [if_pos rfl, ih, List.map_cons, List.filterMap_cons_none]
        exact specEvent_none (by rw [this]; intro d h; cases h)
      | false =>
        rw [if_neg (by simp), List.map_cons, List.filterMap_cons, List.filterMap_cons, ih, regionEvent_comment]
    cases st with
    | none => rw [leadingVisits]; exact hrest _ rfl
    | some p =>
      obtain ⟨h, found⟩ := p
      rw [leadingVisits]
      cases hi : arrayItem c.text with
      | some q =>
        simp only
        rw [List.filterMap_cons_none (by rfl), ih, List.map_cons, List.filterMap_cons_none]
        exact specEvent_none (by rw [item_parse hi]; intro d h; cases h)
      | none =>
        simp only
        rw [List.filterMap_append, flushHeader_events, List.nil_append]
        exact hrest _ rfl

theorem own_events (k : Rule × Nat) (source : Str) (first : Bool) (level : Nat) (n : SynNode) :
    (ownVisits source first level n).filterMap (regionEvent k) =
      ((n.leading ++ notTrailing source n.trailing ++ n.dangling).map (fun c => (c, level))).filterMap (specEvent k) := by
  unfold ownVisits
  simp only [List.filterMap_append, List.map_append, leading_events]
  congr 1
  · congr 1
    unfold notTrailing
    induction n.trailing with
    | nil => rfl
    | cons c cs ih =>
      rw [List.map_cons, List.filterMap_cons, ih]
      by_cases ht : TrailsCode source c.range
      · rw [sameLine_iff.mpr ht, List.filter_cons_of_neg (by simpa using ht)]
        rfl
      · rw [sameLine_false.mpr ht, List.filter_cons_of_pos (by simpa using ht), List.map_cons, List.filterMap_cons,
          regionEvent_comment]
  · induction n.dangling with
    | nil => rfl
    | cons c cs ih =>
      rw [List.map_cons, List.map_cons, List.filterMap_cons, List.filterMap_cons, ih, regionEvent_comment]

mutual
theorem visitNode_events (k : Rule × Nat) (source : Str) : ∀ (n : SynNode) (first : Bool) (level : Nat),
    (visitNode source first level n).filterMap (regionEvent k) =
      (ownLineComments source level n).filterMap (specEvent k)
  | .mk r b le tr da ch, first, level => by
    rw [visitNode_eq, ownLineComments, List.filterMap_append, List.filterMap_append, own_events,
      visitChildren_events k source _ first level]
    rfl
theorem visitChildren_events (k : Rule × Nat) (source : Str) : ∀ (cs : List SynNode) (first : Bool) (level : Nat),
    (visitChildren source first level cs).filterMap (regionEvent k) =
      (ownLineCommentsOf source level cs).filterMap (specEvent k)
  | [], first, level => by rw [visitChildren, ownLineCommentsOf]; rfl
  | c :: cs, first, level => by
    rw [visitChildren, ownLineCommentsOf, List.filterMap_append, List.filterMap_append, visitNode_events k source c,
      visitChildren_events k source cs]
end

/-- The events the collector sees are those of the specification. -/
theorem evs_eq (root : SynNode) (source : Str) (k : Rule × Nat) :
    evs k (visitNode source true 0 root) = regionEvents root source k.1 k.2 := by
  unfold evs
  rw [visitNode_events]
  rfl

end Jarl

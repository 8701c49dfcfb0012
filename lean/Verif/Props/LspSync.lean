import Verif.Props.Lsp
/-!
# C42: keeping the server's copy of a document in sync with the editor
-/
namespace Jarl
open Spec

theorem replaceRange_ok (pre old post t : Str) :
    replaceRange (pre ++ old ++ post) (blen pre) (blen pre + blen old) t = some (pre ++ t ++ post) := by
  unfold replaceRange
  rw [if_neg (by omega)]
  have h1 : splitAtByte (blen pre) (pre ++ old ++ post) = some (pre, old ++ post) := by
    rw [List.append_assoc]; exact splitAtByte_append _ _
  have h2 : blen pre + blen old - blen pre = blen old := by omega
  rw [h1]
  simp only [h2, splitAtByte_append]

/-- The byte range an edit resolves to. -/
def PlacedEdit.resolved (e : PlacedEdit) : Nat × Nat × Str := (blen e.pre, blen e.pre + blen e.old, e.new)

theorem resolveChanges_ok (enc : Enc) (v : Int) (text : Str) (es : List PlacedEdit)
    (h : ∀ e ∈ es, ∃ t, text = e.pre ++ e.old ++ t) :
    (TextDoc.new text v).resolveChanges enc (es.map (PlacedEdit.event enc)) = .ok (es.map PlacedEdit.resolved) := by
  induction es with
  | nil => rfl
  | cons e es ih =>
    obtain ⟨t, ht⟩ := h e (List.mem_cons_self ..)
    have h1 : (TextDoc.new text v).positionToOffset (posOf enc e.pre) enc = .ok (blen e.pre) := by
      rw [ht, List.append_assoc]; exact C41_position_to_offset enc v e.pre (e.old ++ t)
    have h2 : (TextDoc.new text v).positionToOffset (posOf enc (e.pre ++ e.old)) enc =
        .ok (blen e.pre + blen e.old) := by
      rw [ht, ← blen_append]; exact C41_position_to_offset enc v (e.pre ++ e.old) t
    have h3 := ih (fun f hf => h f (List.mem_cons_of_mem _ hf))
    simp only [List.map_cons, TextDoc.resolveChanges, PlacedEdit.event, h1, h2]
    rw [h3]; rfl

theorem endToStart_prefix {e : PlacedEdit} {es : List PlacedEdit} (h : EndToStart (e :: es)) :
    ∀ f ∈ es, ∃ t, e.pre = f.pre ++ f.old ++ t := by
  induction es generalizing e with
  | nil => simp
  | cons g es ih =>
    obtain ⟨⟨gap, hg⟩, h2⟩ := h
    intro f hf
    rcases List.mem_cons.1 hf with rfl | hf
    · exact ⟨gap, hg⟩
    · obtain ⟨t, ht⟩ := ih h2 f hf
      exact ⟨t ++ g.old ++ gap, by rw [hg, ht]; simp⟩

theorem insertDesc_head {x : Nat × Nat × Str} {ys : List (Nat × Nat × Str)} (h : ∀ y ∈ ys, y.1 ≤ x.1) :
    insertDesc x ys = x :: ys := by
  cases ys with
  | nil => rfl
  | cons y ys => simp [insertDesc, h y (List.mem_cons_self ..)]

theorem endToStart_tail {e : PlacedEdit} {es : List PlacedEdit} (h : EndToStart (e :: es)) : EndToStart es := by
  cases es with
  | nil => trivial
  | cons f es => exact h.2

theorem sortDesc_endToStart {es : List PlacedEdit} (h : EndToStart es) :
    sortDesc (es.map PlacedEdit.resolved) = es.map PlacedEdit.resolved := by
  induction es with
  | nil => rfl
  | cons e es ih =>
    simp only [List.map_cons, sortDesc, ih (endToStart_tail h)]
    apply insertDesc_head
    intro y hy
    obtain ⟨f, hf, rfl⟩ := List.mem_map.1 hy
    obtain ⟨t, ht⟩ := endToStart_prefix h f hf
    simp only [PlacedEdit.resolved, ht, blen_append]; omega

theorem applyResolved_run {s s' : Str} {es : List PlacedEdit} (h : EditRun s es s') :
    applyResolved s (es.map PlacedEdit.resolved) = (s', .ok ()) := by
  induction h with
  | done s => rfl
  | step h ih =>
    rename_i e es s
    simp only [List.map_cons, PlacedEdit.resolved, applyResolved]
    rw [if_neg (by simp only [blen_append]; omega), if_neg (by omega), replaceRange_ok]
    exact ih

/-- **C42** (one notification). If the edits of a `didChange` notification are sent from the end of the document to
its start, the server's text afterwards is the editor's text, in every encoding; version and line index are
up to date. -/
theorem C42_end_to_start (enc : Enc) (v v' : Int) (s s' : Str) (es : List PlacedEdit)
    (hrun : EditRun s es s') (hord : EndToStart es) :
    (TextDoc.new s v).applyChanges (es.map (PlacedEdit.event enc)) v' enc = (TextDoc.new s' v', .ok ()) := by
  have hpre : ∀ e ∈ es, ∃ t, s = e.pre ++ e.old ++ t := by
    cases hrun with
    | done => simp
    | step h =>
      rename_i e es
      intro f hf
      rcases List.mem_cons.1 hf with rfl | hf
      · exact ⟨_, rfl⟩
      · obtain ⟨t, ht⟩ := endToStart_prefix hord f hf
        exact ⟨t ++ e.old ++ e.post, by rw [ht]; simp⟩
  unfold TextDoc.applyChanges
  rw [resolveChanges_ok enc v s es hpre]
  simp only [sortDesc_endToStart hord]
  have hc : (TextDoc.new s v).content = s := rfl
  rw [hc, applyResolved_run hrun]
  rfl

/-- **C42** (one change). A notification with a single change: the range is replaced by the new text and nothing else
changes. -/
theorem C42_single_change (enc : Enc) (v v' : Int) (pre old post new : Str) :
    (TextDoc.new (pre ++ old ++ post) v).applyChanges
      [⟨some ⟨posOf enc pre, posOf enc (pre ++ old)⟩, new⟩] v' enc =
      (TextDoc.new (pre ++ new ++ post) v', .ok ()) :=
  C42_end_to_start enc v v' _ _ [⟨pre, old, post, new⟩] (.step (e := ⟨pre, old, post, new⟩) (.done _)) trivial

/-- The server's copy after a history of notifications, from a `didOpen`: errors are logged and the server
continues with the document as it was left (server.rs:144-148); a panic ends it (`none`). -/
def syncHistory (enc : Enc) : TextDoc → List (List LChange × Int) → Option TextDoc
  | d, [] => some d
  | d, (cs, v) :: rest =>
    match d.applyChanges cs v enc with
    | (_, .panic) => none
    | (d', _) => syncHistory enc d' rest

/-- The editor's text after a history of notifications. -/
inductive EditHistory : Str → List (List PlacedEdit × Int) → Str → Prop
  | done (s) : EditHistory s [] s
  | step {s s' t es v rest} : EditRun s es s' → EditHistory s' rest t → EditHistory s ((es, v) :: rest) t

/-- **C42** (whole session). From the moment a document is opened, after any number of notifications each of which lists
its edits from the end of the document to its start, the server has not crashed and its text is the editor's
text, character for character, with the version of the last notification. -/
theorem C42_history (enc : Enc) (v : Int) (s t : Str) (h : List (List PlacedEdit × Int))
    (hh : EditHistory s h t) (hord : ∀ n ∈ h, EndToStart n.1) :
    syncHistory enc (TextDoc.new s v) (h.map fun n => (n.1.map (PlacedEdit.event enc), n.2)) =
      some (TextDoc.new t ((h.map (·.2)).getLast?.getD v)) := by
  induction hh generalizing v with
  | done s => rfl
  | step h1 h2 ih =>
    rename_i es v' rest
    simp only [List.map_cons, syncHistory,
      C42_end_to_start enc v v' _ _ es h1 (hord _ (List.mem_cons_self ..))]
    rw [ih v' (fun n hn => hord n (List.mem_cons_of_mem _ hn))]
    cases rest with
    | nil => rfl
    | cons r rest => simp [List.getLast?_eq_some_getLast]

/-- **C42**, the general statement of the protocol, is false: the positions of every change are resolved in the text *before* the
notification. Typing `a` and then `b`, sent in one notification, leaves the server with `ba`, and no error is
reported (finding F20). -/
theorem C42_false_sequential :
    ∃ (es : List PlacedEdit) (s' : Str), EditRun [] es s' ∧
      ∃ d, (TextDoc.new [] 1).applyChanges (es.map (PlacedEdit.event .utf16)) 2 .utf16 = (d, .ok ()) ∧
        d.content ≠ s' := by
  refine ⟨[⟨[], [], [], ['a']⟩, ⟨['a'], [], [], ['b']⟩], ['a', 'b'], ?_, ?_⟩
  · exact .step (e := ⟨[], [], [], ['a']⟩) (.step (e := ⟨['a'], [], [], ['b']⟩) (.done _))
  · refine ⟨_, Prod.ext rfl (by decide), by decide⟩

/-- **C42**, a failure is not atomic, and it can bring the server down: the editor deletes `aaaa`, then the rest, in one
notification: the second change is out of bounds, the text is left half changed and the line index stale. The next
keystroke slices outside the text and the server panics (finding F20). Every message sent here follows the protocol. -/
theorem C42_false_crash :
    ∃ (h : List (List PlacedEdit × Int)) (s t : Str), EditHistory s h t ∧
      syncHistory .utf16 (TextDoc.new s 1) (h.map fun n => (n.1.map (PlacedEdit.event .utf16), n.2)) = none := by
  refine ⟨[([⟨[], cs! "aaaa", cs! "\nb", []⟩, ⟨[], cs! "\nb", [], []⟩], 2), ([⟨[], [], [], ['x']⟩], 3)],
    cs! "aaaa\nb", ['x'], ?_, ?_⟩
  · refine .step (s' := []) ?_ (.step (s' := ['x']) ?_ (.done _))
    · exact .step (e := ⟨[], cs! "aaaa", cs! "\nb", []⟩)
        (.step (e := ⟨[], cs! "\nb", [], []⟩) (.done _))
    · exact .step (e := ⟨[], [], [], ['x']⟩) (.done _)
  · decide

/-- **C42** (whole-document changes). A notification that contains a change without a range (a full replacement, which
the protocol allows) is refused and leaves the document as it was. -/
theorem C42_full_replacement_refused (enc : Enc) (d : TextDoc) (cs : List LChange) (v : Int)
    (h : ∃ c ∈ cs, c.range = none) : (d.applyChanges cs v enc).2 ≠ .ok () ∧ (d.applyChanges cs v enc).1 = d := by
  have hr : ∀ rs, d.resolveChanges enc cs ≠ .ok rs := by
    induction cs with
    | nil => simp at h
    | cons c cs ih =>
      intro rs hrs
      simp only [TextDoc.resolveChanges] at hrs
      split at hrs
      · cases hrs
      · rename_i r hcr
        obtain ⟨c', hc', hn⟩ := h
        rcases List.mem_cons.1 hc' with rfl | hc'
        · rw [hcr] at hn; cases hn
        · have := ih ⟨c', hc', hn⟩
          split at hrs <;> try cases hrs
          split at hrs <;> try cases hrs
          split at hrs <;> try cases hrs
          rename_i rest hrest
          exact this rest hrest
  unfold TextDoc.applyChanges
  cases hd : d.resolveChanges enc cs with
  | ok rs => exact absurd hd (hr rs)
  | err => simp
  | panic => simp

/-- A concrete history: two notifications, the second with two edits (end first). -/
example : EditHistory (cs! "x = 1\ny")
    [([⟨cs! "x ", cs! "=", cs! " 1\ny", cs! "<-"⟩], 2),
     ([⟨cs! "x <- 1\ny", [], [], cs! "é"⟩, ⟨[], cs! "x", cs! " <- 1\nyé", cs! "z"⟩], 3)]
    (cs! "z <- 1\nyé") := by
  refine .step (s' := cs! "x <- 1\ny") ?_ (.step (s' := cs! "z <- 1\nyé") ?_ (.done _))
  · exact .step (e := ⟨cs! "x ", cs! "=", cs! " 1\ny", cs! "<-"⟩) (.done _)
  · exact .step (e := ⟨cs! "x <- 1\ny", [], [], cs! "é"⟩)
      (.step (e := ⟨[], cs! "x", cs! " <- 1\nyé", cs! "z"⟩) (.done _))

example : EndToStart [⟨cs! "x <- 1\ny", [], [], cs! "é"⟩, ⟨[], cs! "x", cs! " <- 1\nyé", cs! "z"⟩] :=
  ⟨⟨cs! " <- 1\ny", rfl⟩, trivial⟩

end Jarl

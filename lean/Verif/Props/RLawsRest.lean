import Verif.Props.RLawsOps
/-!
# C52: what the rules put in is what they document, the rest
-/
namespace Jarl
open Spec

theorem law_repeatRule : Lawful (cs! "repeat") repeatRule statementLines := by
  intro ts p z ed e' hp hz h hcm hpi hm hpl
  have hw := at_place hp hz
  obtain ⟨fs, e⟩ := z
  unfold repeatRule at h
  split at h
  · next g g2 c g3 b he =>
    simp only at he; subst he
    split at h
    · next ht =>
      cases h
      obtain ⟨h1, h2, h3, h4, h5, h6⟩ := hw
      have body : ∃ b', isExpr b' = true ∧ WF .free b' ∧ bodyBp ≤ lp b' ∧ toks b' = inBraces b ∧ Braced (core b) (core b') := by
        unfold inBraces
        split
        · next gb ssb gb2 => exact ⟨.braces .none ssb gb2, rfl, h5, show bodyBp ≤ topBp by decide, rfl, Or.inl rfl⟩
        · refine ⟨.braces .none (.scons (setGap .none b) [] .snil) .none, rfl, ⟨rfl, ?_⟩, show bodyBp ≤ topBp by decide,
            by simp [toks, trimmed_eq h4 h5, tk], Or.inr (by simp only [core, core_setGap])⟩
          refine ⟨by rw [setGap_isExpr]; exact h4, setGap_wf ?_, rfl, trivial, fun h => absurd rfl h⟩
          rcases hm with hm | hm
          · exact WF_brace hm h4 h5
          · exact WF_oneLine h4 (WF_free (isArgs_of_isArg (isArg_of_isExpr h4)) h5) fun t ht => hm t (by
              have := List.mem_of_mem_tail ht
              simp [fixAt, toks, this])
      obtain ⟨b', hb1, hb2, hb3, hb4, hb5⟩ := body
      rw [placed_core (n := .repE .none b') hpl rfl ⟨hb1, hb2, hb3⟩ (by simp only [toks, hb4]; rfl)]
      simp only [fixAt, core]
      exact .repeat (isAtom_core ht) hb5
    · cases h
  · cases h

theorem cond_core {c} (hc : isExpr c = true) (hw : WF .free c) : ∃ n, isExpr n = true ∧ WF .free n ∧ lp n = topBp ∧ rp n = topBp ∧ toks n = condText c ∧ core n = core c := by
  unfold condText
  split
  · next h =>
    revert h
    cases c <;> simp only [isAtom] <;> intro h <;> first | (cases h; done) | skip
    next g k s => exact ⟨.atom .none k s, rfl, trivial, rfl, rfl, rfl, rfl⟩
  · exact ⟨.paren .none c .none, rfl, ⟨hc, hw⟩, rfl, rfl, by simp [toks, tk], by simp only [core]⟩

theorem law_unnecessaryNesting : Lawful (cs! "unnecessary_nesting") unnecessaryNesting always := by
  intro ts p z ed e' hp hz h _ _ _ hpl
  have hw := at_place hp hz
  obtain ⟨fs, e⟩ := z
  unfold unnecessaryNesting at h
  split at h
  · next g g2 c g3 gb gi gi2 c2 gi3 t2 semis gb2 he =>
    simp only at he hw; subst he
    cases h
    obtain ⟨h1, h2, h3, _, ⟨_, h4⟩, _⟩ := hw
    obtain ⟨_, ⟨h5, h6, h7, h8, h9, h10⟩, _, _, _⟩ := h4
    obtain ⟨n1, a1, a2, a3, a4, a5, a6⟩ := cond_core h1 h2
    obtain ⟨n2, b1, b2, b3, b4, b5, b6⟩ := cond_core h5 h6
    have ht : WF .free (setGap .none t2) := setGap_wf (WF_free (isArgs_of_isArg (isArg_of_isExpr h8)) h9)
    have hc : isExpr (.bin n1 .none .and2 n2) = true ∧ WF .free (.bin n1 .none .and2 n2) ∧ argBp ≤ lp (.bin n1 .none .and2 n2) :=
      ⟨rfl, ⟨a1, b1, a2, b2, rfl, Or.inr rfl, by rw [a4]; decide, by rw [b3]; decide⟩, by simp only [lp, a3]; decide⟩
    rw [placed_core (n := .ifE .none .none (.bin n1 .none .and2 n2) .none (setGap .none t2)) hpl rfl
      ⟨hc.1, hc.2.1, hc.2.2, by rw [setGap_isExpr]; exact h8, ht, by rw [setGap_lp]; exact h10⟩ (by simp [fixAt, toks, tk, a5, b5, trimmed_eq h8 h9])]
    simp only [fixAt, core, a6, b6, core_setGap]
    exact .unnecessary_nesting
  · cases h

theorem single_core {e} (h : severalStatements e = false) : Braced (core (singleStatement e)) (core e) := by
  unfold singleStatement
  split
  · exact Or.inr (by simp only [core])
  · exact Or.inl rfl

theorem law_coalesce : Lawful (cs! "coalesce") coalesce tightSides := by
  intro ts p z ed e' hp hz h _ _ hts hpl
  have hw := at_place hp hz
  obtain ⟨fs, e⟩ := z
  unfold coalesce at h
  split at h
  · next g g2 c g3 t g4 el he =>
    simp only at he hw; subst he
    obtain ⟨h1, h2, h3, h4, h5, h6, h7, h8, h9, h10, h11⟩ := hw
    simp only [Option.bind_eq_bind, Option.bind_eq_some_iff, Prod.exists, Option.some.injEq] at h
    obtain ⟨call, same, other, hpick, f, args, hcall, _, hf, _, hlen, x, hx, _, hst, rfl⟩ := h
    have hf := fn_core (guard_some hf) (by decide)
    have hlen := guard_some hlen
    have hst := guard_some hst
    have hskip : (severalStatements t || severalStatements el) = false := by
      cases hsk : (severalStatements t || severalStatements el) with
      | false => rfl
      | true =>
        rw [hsk, if_pos rfl] at hpl
        obtain ⟨he, ht, _, hwf, _⟩ := hpl
        exact absurd ht (expr_toks he (WF_plug (fs := fs) (e := e') hwf))
    rw [hskip] at hpl
    simp only [Bool.false_eq_true, if_false] at hpl
    simp only [Bool.or_eq_false_iff] at hskip
    obtain ⟨ht1, ht2, ht3⟩ := hts _ _ _ _ _ _ _ rfl
    have hc : WF .free call ∧ callsOne call := by
      revert hpick
      split
      · intro h; cases h; exact ⟨h2, ht2⟩
      · next ga a => intro h; cases h; exact ⟨h2.2.1, ht3 _ _ rfl⟩
      · intro h; cases h
    have hso : isExpr same = true ∧ WF (modeAt fs) same ∧ isExpr other = true ∧ WF (modeAt fs) other ∧
        lbp (.special (cs! "||")) < rp (singleStatement same) ∧ rbp (.special (cs! "||")) ≤ lp (singleStatement other) := by
      revert hpick
      split
      · intro h; cases h; exact ⟨h9, h10, h4, h5, ht1 _ _ rfl⟩
      · intro h; cases h; exact ⟨h4, h5, h9, h10, ht1 _ _ rfl⟩
      · intro h; cases h
    obtain ⟨s1, s2, s3, s4, s5, s6⟩ := hso
    obtain ⟨av, hav, hxv⟩ := List.mem_filterMap.mp (head?_mem hx)
    have hi := asCall_items hc.1 hcall
    have hia := one_item (callsOne_items hcall hc.2) hav
    have hxok := argValue_ok (hi av hav) hxv
    have hs1 := single_ok s1 s2
    have hs2 := single_ok s3 s4
    have hgap := sameText_gap hxok.expr hs1.1 hxok.wf hs1.2.1 hst
    have hcx := sameText_core hxok.expr hs1.1 hxok.wf hs1.2.1 hst
    have hrp : rp x = rp (singleStatement same) := by rw [← setGap_rp .none x, hgap, setGap_rp]
    have hnew := placed_core (n := .bin (setGap .none x) .none (.special (cs! "||")) (setGap .none (singleStatement other))) hpl rfl
      ⟨by rw [setGap_isExpr]; exact hxok.expr, by rw [setGap_isExpr]; exact hs2.1, setGap_wf hxok.wf, setGap_wf hs2.2.1, rfl, Or.inr rfl, by rw [setGap_rp, hrp]; exact s5,
        by rw [setGap_lp]; exact s6⟩
      (by simp only [toks, trimmed_eq hxok.expr hxok.wf, trimmed_eq hs2.1 hs2.2.1]; rfl)
    simp only [core, core_setGap] at hnew
    rw [hnew]
    have hcc := asCall_core hc.1 hcall
    rw [hia, List.map_singleton] at hcc
    have hval : valueOf (core av) = some (core x) := by rw [valueOf_core (hi av hav), hxv]; rfl
    have hold : (core c = callOf (core f) [core av] ∧ same = el ∧ other = t) ∨ (core c = .un .none .bang (callOf (core f) [core av]) ∧ same = t ∧ other = el) := by
      revert hpick
      split
      · intro h; cases h; exact Or.inl ⟨hcc, rfl, rfl⟩
      · intro h; cases h; exact Or.inr ⟨by simp only [core]; rw [hcc], rfl, rfl⟩
      · intro h; cases h
    have hb1 := single_core hskip.1
    have hb2 := single_core hskip.2
    simp only [core]
    rcases hold with ⟨h, rfl, rfl⟩ | ⟨h, rfl, rfl⟩
    · rw [h]; exact .coalesce hf (isArg_core (hi av hav)) hval hb1 (hcx ▸ hb2)
    · rw [h]; exact .coalesce_not hf (isArg_core (hi av hav)) hval (hcx ▸ hb1) hb2
  · cases h

theorem nodup_of_map {α β} (f : α → β) {l : List α} (h : (l.map f).Nodup) : l.Nodup := by
  induction l with
  | nil => simp
  | cons a l ih =>
    have ⟨h1, h2⟩ := List.nodup_cons.mp h
    exact List.nodup_cons.mpr ⟨fun hm => h1 (List.mem_map_of_mem hm), ih h2⟩

theorem sortNames_nodup {as : List Node} (h : ((namedArgs as).map argName).Nodup) :
    ∀ names : List Str, names.Nodup → (∀ a ∈ namedArgs as, argName a ∈ names.map some) → (names.filterMap (argByName as)).Perm (namedArgs as) := by
  intro names hn hs
  have hfn : ∀ {q a}, argByName as q = some a → argName a = some q := fun {q a} h => by
    simpa using List.find?_some (p := fun a => decide (argName a = some q)) h
  have hnd : (namedArgs as).Nodup := nodup_of_map _ h
  have hnd' : (names.filterMap (argByName as)).Nodup := by
    clear hs
    induction names with
    | nil => simp
    | cons q names ih =>
      have ⟨h1, h2⟩ := List.nodup_cons.mp hn
      simp only [List.filterMap_cons]
      split
      · exact ih h2
      · next a ha =>
        refine List.nodup_cons.mpr ⟨fun hm => ?_, ih h2⟩
        obtain ⟨q', hq', hq''⟩ := List.mem_filterMap.mp hm
        have := (hfn ha).symm.trans (hfn hq'')
        cases this
        exact h1 hq'
  refine (List.perm_ext_iff_of_nodup hnd' hnd).mpr fun a => ⟨fun ha => ?_, fun ha => ?_⟩
  · obtain ⟨q, _, hq⟩ := List.mem_filterMap.mp ha
    exact List.mem_filter.mpr ⟨argByName_mem hq, by rw [hfn hq]; rfl⟩
  · obtain ⟨q, hq, hqa⟩ := List.mem_map.mp (hs a ha)
    refine List.mem_filterMap.mpr ⟨q, hq, ?_⟩
    have ham := (List.mem_filter.mp ha).1
    cases hf : argByName as q with
    | none => have := List.find?_eq_none.mp hf a ham; simp [← hqa] at this
    | some b =>
      have hb : b ∈ namedArgs as := List.mem_filter.mpr ⟨argByName_mem hf, by rw [hfn hf]; rfl⟩
      have hbn := hfn hf
      congr 1
      -- the same name in a list without repeated names
      have : ∀ {l : List Node}, (l.map argName).Nodup → a ∈ l → b ∈ l → argName a = argName b → b = a := by
        intro l
        induction l with
        | nil => intro _ h; cases h
        | cons c l ih =>
          intro hl h1 h2 h3
          have ⟨hc, hl⟩ := List.nodup_cons.mp hl
          rcases List.mem_cons.mp h1 with rfl | k1 <;> rcases List.mem_cons.mp h2 with rfl | k2
          · rfl
          · exact absurd (h3 ▸ List.mem_map_of_mem k2) hc
          · exact absurd (h3 ▸ List.mem_map_of_mem k1) hc
          · exact ih hl k1 k2 h3
      exact this h ha hb (by rw [← hqa, hbn])

theorem argList_nil {n} : argList n ≠ [] := by
  cases n <;> simp [argList]

theorem items_single {args a} (h : items args = [a]) : args = a := by
  unfold items at h
  split at h
  · cases h
  · cases args with
    | comma b g r =>
      simp only [argList, List.cons.injEq] at h
      exact absurd h.2 argList_nil
    | _ => simpa [argList] using h

theorem law_sortRule : Lawful (cs! "sort") sortRule sortOptions := by
  intro ts p z ed e' hp hz h _ _ hc hpl
  have hw := at_place hp hz
  unrule sortRule h
  obtain ⟨x, args, h1, _, hl, a, ha, _, han, v, hv, f, oargs, h2, _, hf, _, hu1, u, hu, _, hst, rfl⟩ := h
  have hi := asSubset_items hw h1
  have hia := one_item (guard_some hl) (head?_mem ha)
  have hav := unnamed_value (by simpa using guard_some han) hv
  subst hav
  have hvo := argValue_ok (hi a (head?_mem ha)) hv
  have hii := asCall_items hvo.wf h2
  have hum := head?_mem hu
  have huu := one_item (guard_some hu1) hum
  obtain ⟨g, g2, he⟩ := asSubset_eq h1
  have hw' := hw
  rw [he] at hw'
  have hxe := hw'.1
  have hxw : WF .free x := WF_free (isArgs_of_isArg (isArg_of_isExpr hxe)) hw'.2.1
  have hxo : ExprOk x := ⟨hxe, hxw, Nat.le_trans (by decide) (rp_lp hxe hxw postfixBp (by decide) (by decide) hw'.2.2.2.1)⟩
  have huo := hii u (unnamedArgs_mem hum)
  have hst := guard_some hst
  have hue : isExpr u = true := by
    have hn : argName u = none := by simpa using (List.mem_filter.mp hum).2
    have := huo.arg
    revert hn this
    cases u <;> simp [argName, isArg, isExpr]
    · simp only [sameText, decide_eq_true_eq] at hst
      exact expr_toks hxe hxw (by
        simp only [trimmed, toks, setHead] at hst
        revert hst; cases toks x <;> simp [setHead])
  have hcu := sameText_core hue hxe huo.wf hxw hst
  have hargs : args = a := items_single hia
  have he' : z.e = .call x g .brk a g2 := by rw [he, hargs]
  obtain ⟨g3, g4, hae⟩ := asCall_eq h2
  simp only [sortOptions, fixAt] at hc
  obtain ⟨c1, c2⟩ := hc x g f g3 g2 oargs g4 (by rw [he', hae])
  have hperm := sortNames_nodup c1 [cs! "na.last", cs! "decreasing", cs! "method"] (by decide) (fun b hb => by simpa using c2 b hb)
  have hnew : ArgsCore (joinComma (trimmed x :: ([cs! "na.last", cs! "decreasing", cs! "method"].filterMap (argByName (items oargs))).map trimmed))
      (core x :: ([cs! "na.last", cs! "decreasing", cs! "method"].filterMap (argByName (items oargs))).map core) := by
    have := ArgsCore.join (as := x :: [cs! "na.last", cs! "decreasing", cs! "method"].filterMap (argByName (items oargs))) (fun b hb => by
      rcases List.mem_cons.mp hb with rfl | hb
      · exact hxo.argOk
      · obtain ⟨q, _, hq⟩ := List.mem_filterMap.mp hb; exact hii b (argByName_mem hq)) (by simp)
    simpa using this
  rw [(ClosedCore.callText hnew).placed hpl]
  have hcore : core z.e = .call (core x) .none .brk (callOf (core f) ((items oargs).map core)) .none := by
    rw [he', core_call, asCall_core hvo.wf h2]
  rw [show core (fixAt z _).z.e = _ from hcore]
  refine .sort (fn_core (guard_some hf) (by decide)) (isArg_map hii) ?_ ?_
  · rw [filter_core (p := fun o => o.isNone) hii, ← hcu]
    show (unnamedArgs (items oargs)).map core = _
    rw [huu]; rfl
  · rw [filter_core (p := fun o => o.isSome) hii]
    exact hperm.map core

theorem law_stringBoundary : Lawful (cs! "string_boundary") stringBoundary boundaryPlaces := by
  intro ts p z ed e' hp hz h _ _ hc hpl
  have hw := at_place hp hz
  unrule stringBoundary h
  obtain ⟨l, o, r, hb, _, ho, c, s, hcs, f, args, h1, _, hf, x, hx, start, hstart, stop, hstop, name, hname, rfl⟩ := h
  have ho := guard_some ho
  have hf := guard_some hf
  have hno : o ∉ [Op.pipe, .rassign, .superRassign] := by rcases ho with rfl | rfl <;> simp
  have hl := left_ok hw hb (by rcases ho with rfl | rfl <;> decide)
  have hr := right_ok hw hb (by rcases ho with rfl | rfl <;> decide)
  obtain ⟨g, he⟩ := asBin_eq hb
  have hcs' : (c = l ∧ s = r) ∨ (c = r ∧ s = l) := by
    revert hcs
    split
    · intro h; cases h; exact Or.inl ⟨rfl, rfl⟩
    · split
      · intro h; cases h; exact Or.inr ⟨rfl, rfl⟩
      · intro h; cases h
  have hco : ExprOk c ∧ ExprOk s := by rcases hcs' with ⟨rfl, rfl⟩ | ⟨rfl, rfl⟩ <;> exact ⟨by assumption, by assumption⟩
  obtain ⟨gc, gc2, hce⟩ := asCall_eq h1
  obtain ⟨x', start', stop', hargs, hnn, hpos⟩ := hc l g o r he c s hcs' ⟨_, _, _, _, hce⟩
  rw [argsOf_call h1] at hargs
  simp only [noNames, argsOf_call h1] at hnn
  have hi := asCall_items hco.1.wf h1
  rw [hargs] at hx hstart hstop hnn
  simp only [List.getElem?_cons_zero, List.getElem?_cons_succ, Option.some.injEq, exists_eq_left'] at hx hstart hstop
  have e1 := unnamed_value (hnn x' (by simp)) hx
  have e2 := unnamed_value (hnn start' (by simp)) hstart
  have e3 := unnamed_value (hnn stop' (by simp)) hstop
  subst e1 e2 e3
  have hxo := argValue_ok (hi x' (by rw [hargs]; simp)) hx
  have hstopo := argValue_ok (hi stop' (by rw [hargs]; simp)) hstop
  have hcc : core c = callOf (core f) [core x', core start', core stop'] := by rw [asCall_core hco.1.wf h1, hargs]; rfl
  have hF : Fn (cs! "substr") (core f) ∨ Fn (cs! "substring") (core f) := by
    rcases hf with h | h
    · exact Or.inl (fn_core h (by decide))
    · exact Or.inr (fn_core h (by decide))
  have hlr : (core l = callOf (core f) [core x', core start', core stop'] ∧ core r = core s) ∨ (core l = core s ∧ core r = callOf (core f) [core x', core start', core stop']) := by
    rcases hcs' with ⟨rfl, rfl⟩ | ⟨rfl, rfl⟩
    · exact Or.inl ⟨hcc, rfl⟩
    · exact Or.inr ⟨rfl, hcc⟩
  rw [ite_decide] at hpl
  rw [show core (fixAt z _).z.e = _ from asBin_core hb hno, (ClosedCore.callText (hxo.core.comma hco.2.core)).notIf hpl]
  revert hname
  split
  · next hone =>
    intro h; cases h
    refine .string_start hF (by rw [valueOf_core (hi x' (by rw [hargs]; simp)), hx]; rfl) ?_ hlr ho
    rcases hpos with h | ⟨_, _, _, _, _, _, _, _, h⟩
    · exact h
    · revert hone; unfold isLiteralOne
      split
      · cases h
      · cases h
      · intro h; cases h
  · split
    · next hnc =>
      intro h; cases h
      refine .string_end hF (by rw [valueOf_core (hi x' (by rw [hargs]; simp)), hx]; rfl) ?_ hlr ho
      rcases hpos with ⟨_, body, _, _, k, hk, _⟩ | h
      · exfalso
        unfold isNcharOf at hnc
        split at hnc
        · next f2 args2 h2 =>
          rw [asCall_core hstopo.wf h2] at hk; cases hk
        · cases hnc
      · exact h
    · intro h; cases h

end Jarl

import Verif.Spec.UnusedHelp
import Verif.Run
import Verif.Props.PackageDup
/-!
# C49: what is said about a function that is never called
-/
namespace Jarl
open Spec

theorem testDirAt_succ {c : Str} {cs : List Str} {i : Nat} {d : Str} : TestDirAt (c :: cs) (i + 1) d ↔ TestDirAt cs i d := by
  unfold TestDirAt; simp

theorem testDir_unique {path : List Str} {i : Nat} {d d' : Str} (h : TestDirAt path i d) (h' : TestDirAt path i d') : d = d' := by
  rcases h with ⟨a, rfl⟩ | ⟨a, b, rfl⟩ | ⟨a, b, rfl⟩ <;> rcases h' with ⟨a', rfl⟩ | ⟨a', b', rfl⟩ | ⟨a', b', rfl⟩ <;> first
    | rfl
    | (rw [a] at a'; exact absurd a' (by decide))
    | (rw [b] at b'; exact absurd b' (by decide))

theorem scope_cons {c : Str} {cs : List Str} {d : Str} (h : ∀ d', ¬ TestDirAt (c :: cs) 0 d') (hs : ScopeOf cs d) : ScopeOf (c :: cs) d := by
  rcases hs with ⟨i, h1, h2⟩ | ⟨h1, h2⟩
  · refine .inl ⟨i + 1, testDirAt_succ.2 h1, ?_⟩
    intro j hj d' hd
    cases j with
    | zero => exact h d' hd
    | succ j => exact h2 j (by omega) d' (testDirAt_succ.1 hd)
  · refine .inr ⟨h1, ?_⟩
    intro j d' hd
    cases j with
    | zero => exact h d' hd
    | succ j => exact h2 j d' (testDirAt_succ.1 hd)

theorem scopeDir_of : ∀ path : List Str, ScopeOf path (scopeDir path)
  | [] => .inr ⟨rfl, by intro j d' h; unfold TestDirAt at h; simp at h⟩
  | c :: cs => by
    have ih := scopeDir_of cs
    rw [scopeDir.eq_def]
    dsimp only
    split
    · rename_i hc
      subst hc
      exact .inl ⟨0, .inl ⟨rfl, rfl⟩, by simp⟩
    · rename_i hc
      split
      · rename_i hi
        subst hi
        split
        · rename_i n rest
          split
          · rename_i hn
            simp only [Bool.or_eq_true, decide_eq_true_eq] at hn
            rcases hn with rfl | rfl
            · exact .inl ⟨0, .inr (.inl ⟨rfl, rfl, rfl⟩), by simp⟩
            · exact .inl ⟨0, .inr (.inr ⟨rfl, rfl, rfl⟩), by simp⟩
          · rename_i hn
            simp only [Bool.or_eq_true, decide_eq_true_eq, not_or] at hn
            refine scope_cons ?_ ih
            intro d' h
            unfold TestDirAt at h
            simp [hn.1, hn.2] at h
        · refine scope_cons ?_ ih
          intro d' h
          unfold TestDirAt at h
          simp at h
      · rename_i hi
        refine scope_cons ?_ ih
        intro d' h
        unfold TestDirAt at h
        simp [hc, hi] at h

theorem scope_unique {path : List Str} {d d' : Str} (h : ScopeOf path d) (h' : ScopeOf path d') : d = d' := by
  rcases h with ⟨i, h1, h2⟩ | ⟨h1, h2⟩ <;> rcases h' with ⟨j, h3, h4⟩ | ⟨h3, h4⟩
  · rcases Nat.lt_trichotomy i j with hij | rfl | hij
    · exact absurd h1 (h4 i hij d)
    · exact testDir_unique h1 h3
    · exact absurd h3 (h2 j hij d')
  · exact absurd h1 (h4 i d)
  · exact absurd h3 (h2 j d')
  · rw [h1, h3]

/-- **C49** (the message). A function in the R directory of a package that is never called is reported as defined at its file (relative to the working directory) and line; a function in tests also with
the first directory of tests on the path of its file. -/
theorem C49_unused_message {w : FileWorld} {s : JarlSettings} {cfg : Config} {o : PkgOrder} {paths : List DPath} {p : DPath} {key name help : Str} {rg : Range}
    (h : (name, rg, help) ∈ (analysisOf w s cfg o paths p).unused key) :
    ∃ n : Nat, (∃ r ∈ entryAfter p (unusedMap w s cfg o paths), r.name = name ∧ r.range = rg ∧ r.line = n) ∧
      ((PackageFile w.pkgFs p ∧ help = cs! "Defined at " ++ relText w.cwd p ++ cs! ":" ++ digits n ++ cs! ":1 but never called") ∨
        (¬ PackageFile w.pkgFs p ∧ ∃ d, ScopeOf (splitOn '/' (relText w.cwd p)) d ∧
          help = cs! "Defined at " ++ relText w.cwd p ++ cs! ":" ++ digits n ++ cs! ":1 but never called in " ++ d)) := by
  obtain ⟨r, hr, he⟩ := List.mem_map.1 h
  simp only [Prod.mk.injEq] at he
  obtain ⟨rfl, rfl, rfl⟩ := he
  refine ⟨r.line, ⟨r, hr, rfl, rfl, rfl⟩, ?_⟩
  unfold unusedHelp
  by_cases hp : PackageFile w.pkgFs p
  · refine .inl ⟨hp, ?_⟩
    simp [packageFile_iff.2 hp]
  · refine .inr ⟨hp, _, scopeDir_of _, ?_⟩
    have : inPackageR w.pkgFs p = false := by
      rw [← Bool.not_eq_true, packageFile_iff]; exact hp
    simp [this]

/-- `pkg/inst/tinytest/a.R` -/
example : ScopeOf [cs! "pkg", cs! "inst", cs! "tinytest", cs! "a.R"] (cs! "inst/tinytest/") := scopeDir_of _

end Jarl

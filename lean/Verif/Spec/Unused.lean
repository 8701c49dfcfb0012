import Verif.Spec.Namespace
/-!
# Specification: unused functions of a package
-/
namespace Jarl.Spec
open Jarl

/-- `root` is a package that contains a given R file. -/
def GivenPackage (fs : PkgFs) (paths : List DPath) (root : DPath) : Prop :=
  ∃ p ∈ paths, PackageFile fs p ∧ p.dropLast.dropLast = root

/-- `root` is the closest directory above `q` with a DESCRIPTION file. -/
structure NearestRoot (fs : PkgFs) (q root : DPath) : Prop where
  desc : fs.description root = true
  above : root <+: q ∧ root ≠ q
  closest : ∀ d, fs.description d = true → d <+: q → d ≠ q → d.length ≤ root.length

/-- `q` is a test (R file below tests, inst/tests, inst/tinytest) or a C/C++ source (below src) of the package `root`. -/
structure ExtraFile (fs : PkgFs) (paths : List DPath) (root q : DPath) (content : Str) : Prop where
  searched : ∃ r, GivenPackage fs paths r ∧
    (RFile q ∧ (q ∈ fs.below (r ++ [cs! "tests"]) ∨ q ∈ fs.below (r ++ [cs! "inst", cs! "tests"]) ∨
      q ∈ fs.below (r ++ [cs! "inst", cs! "tinytest"])) ∨
     CFile q ∧ q ∈ fs.below (r ++ [cs! "src"]))
  root : NearestRoot fs q root
  read : fs.read q = some content

/-- Functions that R itself calls. -/
def Hooks : List Str :=
  [cs! ".onLoad", cs! "on_load", cs! ".onAttach", cs! ".onDetach", cs! ".onUnload", cs! ".Last.lib", cs! ".First.lib"]

/-- The function `name`, defined in the R directory `root/R` of a package with NAMESPACE `ns`, is not used: it is not exported, not
called by R itself, not skipped by an option, not an S3 method of a generic mentioned in the package, not mentioned in the
R directory except where it is defined, and not mentioned in the tests and the C/C++ sources. -/
structure Unused (alnum : Char → Bool) (env : UnusedEnv) (fs : PkgFs) (paths : List DPath) (root : DPath) (ns name : Str) : Prop where
  exported : ¬ NsExports env.re ns name
  hook : name ∉ Hooks
  skipped : env.skipped name = false
  method : ∀ g c, g ≠ [] → name = g ++ '.' :: c → ∀ q content, RFileIn fs paths (root ++ [cs! "R"]) q content → ¬ Mentioned content g
  r : ∀ q content, RFileIn fs paths (root ++ [cs! "R"]) q content → OnlyDefined alnum content name
  extra : ∀ q content, ExtraFile fs paths root q content → ¬ Mentioned content name

/-- The same for any name: jarl does not see uses of names with non-ASCII characters (nor such generics). -/
structure SeenUnused (alnum : Char → Bool) (env : UnusedEnv) (fs : PkgFs) (paths : List DPath) (root : DPath) (ns name : Str) : Prop where
  exported : ¬ NsExports env.re ns name
  hook : name ∉ Hooks
  skipped : env.skipped name = false
  method : ∀ g c, AsciiName g → name = g ++ '.' :: c → ∀ q content, RFileIn fs paths (root ++ [cs! "R"]) q content → ¬ Mentioned content g
  r : AsciiName name → ∀ q content, RFileIn fs paths (root ++ [cs! "R"]) q content → OnlyDefined alnum content name
  extra : AsciiName name → ∀ q content, ExtraFile fs paths root q content → ¬ Mentioned content name

end Jarl.Spec

#!/usr/bin/env python3
"""Generates lean/Verif/Rules.lean from /repo/crates/jarl-core/src/rule_set.rs (declare_rules! table)."""
import re
src=open('/repo/crates/jarl-core/src/rule_set.rs').read()
start=src.index('declare_rules! {\n    AllEqual')
end=src.index('\n}\n',start)
tab=src[start:end]
lines=src.split('\n')
rows=[]
pat=re.compile(r'(#\[deprecated\(version = "([^"]+)", replacement = "([^"]+)"\)\]\s*)?(\w+) => \{\s*name: "([^"]+)",\s*categories: \[([^\]]+)\],\s*default: (\w+),\s*fix: (\w+),\s*min_r_version: (None|Some\(\((\d+), (\d+), (\d+)\)\)),\s*\}')
for m in pat.finditer(tab):
    line=src[:start+m.start(4)].count('\n')+1
    rows.append(dict(var=m[4],name=m[5],cats=[c.strip() for c in m[6].split(',') if c.strip()],default=m[7],fix=m[8],
        minv=None if m[9]=='None' else (m[10],m[11],m[12]),dep=(m[2],m[3]) if m[1] else None,line=line))
assert len(rows)==tab.count('name: "'),(len(rows),tab.count('name: "'))
lc=lambda v:v[0].lower()+v[1:]
kw={'repeat':'repeat_','for':'for_'}
ctor=lambda v:kw.get(lc(v),lc(v))
first=src[:start].count('\n')+1; last=src[:end].count('\n')+2
o=[]
w=o.append
w(f'''import Verif.Text
/-!
# Rules: the rule table (generated by tools/gen_rules.py from crates/jarl-core/src/rule_set.rs)

Models rule_set.rs:1-220 (types, accessors) and the `declare_rules!` table, rule_set.rs:{first}-{last}.
-/

namespace Jarl

/-- rule_set.rs:6-19 `Category`. -/
inductive Category | comm | corr | susp | perf | read | testthat
  deriving DecidableEq, Repr

/-- rule_set.rs:22-31 `Category::as_str`. -/
def Category.name : Category → Str
  | .comm => cs! "COMM" | .corr => cs! "CORR" | .susp => cs! "SUSP"
  | .perf => cs! "PERF" | .read => cs! "READ" | .testthat => cs! "TESTTHAT"

/-- rule_set.rs:33-40 `Category::ALL`. -/
def Category.all : List Category := [.comm, .corr, .susp, .perf, .read, .testthat]

/-- rule_set.rs:49-63 `FromStr for Category`. -/
def Category.parse (s : Str) : Option Category :=
  if s = cs! "COMM" then some .comm
  else if s = cs! "CORR" then some .corr
  else if s = cs! "SUSP" then some .susp
  else if s = cs! "PERF" then some .perf
  else if s = cs! "READ" then some .read
  else if s = cs! "TESTTHAT" then some .testthat
  else none

/-- rule_set.rs:72-78 `FixStatus`. -/
inductive FixStatus | none | safe | unsafe_
  deriving DecidableEq, Repr

/-- An R version `(major, minor, patch)`; Rust `(u32, u32, u32)`. -/
structure RVersion where
  major : Nat
  minor : Nat
  patch : Nat
  deriving DecidableEq, Repr

/-- The derived lexicographic `<=` on Rust tuples `(u32, u32, u32)`. -/
def RVersion.le (a b : RVersion) : Bool :=
  a.major < b.major || (a.major == b.major &&
    (a.minor < b.minor || (a.minor == b.minor && a.patch ≤ b.patch)))

/-- rule_set.rs:{first}-{last} `enum Rule` (one constructor per `declare_rules!` entry). -/
inductive Rule''')
for i in range(0,len(rows),4):
    w('  '+' '.join('| '+ctor(r['var']) for r in rows[i:i+4]))
w('  deriving DecidableEq, Repr\n')
w(f'/-- rule_set.rs:114-118 `Rule::name`, table rule_set.rs:{first}-{last}. -/\ndef Rule.name : Rule → Str')
for r in rows: w(f'  | .{ctor(r["var"])} => cs! "{r["name"]}"  -- rule_set.rs:{r["line"]}')
w(f'\n/-- rule_set.rs:121-125 `Rule::categories`. -/\ndef Rule.categories : Rule → List Category')
for r in rows: w(f'  | .{ctor(r["var"])} => [{", ".join("."+c.lower() for c in r["cats"])}]')
w(f'\n/-- rule_set.rs:128-132,178-180 `Rule::default_status` / `is_enabled_by_default`. -/\ndef Rule.enabledByDefault : Rule → Bool')
for r in rows:
    if r['default']=='Disabled': w(f'  | .{ctor(r["var"])} => false')
w('  | _ => true')
w(f'\n/-- rule_set.rs:135-139 `Rule::fix_status`. -/\ndef Rule.fixStatus : Rule → FixStatus')
m={'None':'.none','Safe':'.safe','Unsafe':'.unsafe_'}
for r in rows: w(f'  | .{ctor(r["var"])} => {m[r["fix"]]}')
w(f'\n/-- rule_set.rs:142-146 `Rule::minimum_r_version`. -/\ndef Rule.minVersion : Rule → Option RVersion')
for r in rows:
    if r['minv']: w(f'  | .{ctor(r["var"])} => some ⟨{", ".join(r["minv"])}⟩')
w('  | _ => none')
w(f'\n/-- rule_set.rs:149-153 `Rule::deprecation` (the replacement rule name). -/\ndef Rule.deprecation : Rule → Option Str')
for r in rows:
    if r['dep']: w(f'  | .{ctor(r["var"])} => some (cs! "{r["dep"][1]}")')
w('  | _ => none')
w(f'\n/-- rule_set.rs:213-216 `ALL_RULES` / `Rule::all`. -/\ndef Rule.all : List Rule := [')
for i in range(0,len(rows),4):
    w('  '+', '.join('.'+ctor(r['var']) for r in rows[i:i+4])+(',' if i+4<len(rows) else ']'))
w('''
/-- rule_set.rs:193-198 `Rule::from_name`: a Rust `match` on the literals in table order, i.e. the
first rule whose name literal equals the string. -/
def Rule.fromName (s : Str) : Option Rule := Rule.all.find? (fun r => r.name = s)

/-- rule_set.rs:163-176 -/
def Rule.hasSafeFix (r : Rule) : Bool := r.fixStatus = .safe
/-- rule_set.rs:168-170 -/
def Rule.hasUnsafeFix (r : Rule) : Bool := r.fixStatus = .unsafe_
/-- rule_set.rs:173-175 -/
def Rule.hasNoFix (r : Rule) : Bool := r.fixStatus = .none
/-- rule_set.rs:188-190 `has_category`. -/
def Rule.hasCategory (r : Rule) (c : Category) : Bool := r.categories.contains c

/-! ## Lemmas about the table -/

theorem Rule.mem_all (r : Rule) : r ∈ Rule.all := by cases r <;> decide

theorem Rule.all_nodup : Rule.all.Nodup := by decide +kernel

theorem Rule.names_nodup : (Rule.all.map Rule.name).Nodup := by decide +kernel

theorem nodup_map_inj {α β} {f : α → β} {l : List α} (h : (l.map f).Nodup) {a b : α}
    (ha : a ∈ l) (hb : b ∈ l) (hab : f a = f b) : a = b := by
  induction l with
  | nil => cases ha
  | cons c l ih =>
    simp only [List.map_cons, List.nodup_cons, List.mem_map, not_exists, not_and] at h
    rcases List.mem_cons.mp ha with rfl | ha'
    · rcases List.mem_cons.mp hb with rfl | hb'
      · rfl
      · exact absurd hab.symm (h.1 b hb')
    · rcases List.mem_cons.mp hb with rfl | hb'
      · exact absurd hab (h.1 a ha')
      · exact ih h.2 ha' hb'

theorem Rule.name_inj {r s : Rule} (h : r.name = s.name) : r = s :=
  nodup_map_inj Rule.names_nodup (Rule.mem_all r) (Rule.mem_all s) h

theorem Rule.fromName_eq_some {s : Str} {r : Rule} : Rule.fromName s = some r ↔ r.name = s := by
  unfold Rule.fromName
  constructor
  · intro h
    have := List.find?_some h
    simpa using this
  · intro h
    subst h
    cases hf : Rule.all.find? (fun r' => decide (r'.name = r.name)) with
    | none =>
      have := List.find?_eq_none.mp hf r (Rule.mem_all r)
      simp at this
    | some r' =>
      have := List.find?_some hf
      simp at this
      rw [Rule.name_inj this]

theorem Rule.fromName_eq_none {s : Str} : Rule.fromName s = none ↔ ∀ r : Rule, r.name ≠ s := by
  constructor
  · intro h r hr
    rw [Rule.fromName_eq_some.mpr hr] at h; cases h
  · intro h
    cases hf : Rule.fromName s with
    | none => rfl
    | some r => exact absurd (Rule.fromName_eq_some.mp hf) (h r)

theorem Category.parse_eq_some {s : Str} {c : Category} : Category.parse s = some c ↔ c.name = s := by
  constructor
  · intro h
    unfold Category.parse at h
    repeat' split at h
    all_goals first
      | (cases h; subst_vars; rfl)
      | cases h
  · rintro rfl; cases c <;> decide

theorem Category.mem_all (c : Category) : c ∈ Category.all := by cases c <;> decide

/-- Rule names consist of lower-case letters, digits and underscores, and are non-empty. -/
def isRuleChar (c : Char) : Bool :=
  (97 ≤ c.toNat && c.toNat ≤ 122) || (48 ≤ c.toNat && c.toNat ≤ 57) || c = '_'

theorem Rule.name_chars (r : Rule) : (∀ c ∈ r.name, isRuleChar c = true) ∧ r.name ≠ [] := by
  cases r <;> decide +kernel

end Jarl''')
open('/verif/lean/Verif/Rules.lean','w').write('\n'.join(o)+'\n')
print(len(rows),first,last)

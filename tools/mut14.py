M=[]
def m(id,definition,old,new,edit,claim='C65',file='Toml.lean'):
    M.append(dict(id=id,file=file,definition=definition,old=old,new=new,edit=edit,claim=claim))
m('to1','known',"t.all (fun e => ks.contains e.1) && ks","ks","deny_unknown_fields forgotten")
m('to2','known'," && ks.all (fun k => decide (given t k ≤ 1))","","duplicate keys accepted")
m('to3','asNat',"if 0 ≤ i then some i.toNat else none","some i.toNat","negative threshold becomes 0")
m('to4','asListOpt',"    some ⟨base, extend⟩","    some ⟨extend, base⟩","list and extension swapped")
m('to5','asListOpt',"let extend ← optional asStrs t (cs! \"extend-\" ++ name)","let extend ← optional asStrs t (cs! \"extend_\" ++ name)","snake_case key")
m('to6','asAssign',"  | .str s => some (.legacy s)\n","","old form of assignment refused")
m('to7','lintKeys',"cs! \"include\", ","","include reported as unknown")
m('to8','asLint',"let ignore ← optional asStrs t (cs! \"ignore\")","let ignore ← optional asStrs t (cs! \"extend-ignore\")","wrong key")
m('to9','asLint',"optional (asListOpt (cs! \"stopping-functions\")) t (cs! \"unreachable_code\")","optional (asListOpt (cs! \"stopping-functions\")) t (cs! \"unreachable-code\")","kebab-case name of the rule's table")
m('to10','asLint',"unknown := (t.map (·.1)).filter (fun k => !lintKeys.contains k) }","unknown := [] }","unknown keys forgotten")
m('to11','asOptions',"  guard (known [cs! \"lint\"] doc)\n","","unknown tables accepted")
m('to12','resolveOperator',"else if s = cs! \"=\" then .ok .equal else .error (.operator s)","else .ok .equal","any other operator is =")
m('to13','resolveOperator',"  | none => .ok .arrow","  | none => .ok .equal","wrong default operator")
m('to14','resolveList',"resolveWithExtend (o.bind (·.base)) (o.bind (·.extend)) defaults","resolveWithExtend (o.bind (·.extend)) (o.bind (·.base)) defaults","arguments swapped")
m('to15','resolvePatterns',"  | some p => .error (.regex p)\n","  | some _ => .ok (ps.filter isRegex)\n","invalid patterns dropped silently")
m('to16','intoSettings',"      | some (.legacy s) => (some s, true)","      | some (.legacy s) => (some s, false)","deprecation not recorded")
m('to17','intoSettings',"  | some k => .error (.unknownField k)\n","  | some _ => .error .parse\n","error without the name","C65 (the refusal stays justified)")
m('to18','intoSettings',"l.undesirable undesirableDefaults","l.undesirable dupArgsDefaults","wrong defaults")
m('to19','intoSettings',"resolveList (cs! \"implicit_assignment\") l.implicit","resolveList (cs! \"implicit_assignment\") l.dup","options of another rule")
m('to20','intoSettings',"fixable := l.fixable, unfixable := l.unfixable }","fixable := l.unfixable, unfixable := l.fixable }","swapped")
m('to21','intoSettings',".getD 50, skipped }",".getD 0, skipped }","wrong default threshold")
m('to22','intoSettings',"incl := l.incl, excl := l.excl","incl := l.excl, excl := l.incl","swapped")
m('to23','isSkipped',"s.skipped.any","s.skipped.all","all patterns must match")
m('to24','configName',"  if isFile (cs! \"jarl.toml\") then some (cs! \"jarl.toml\")\n  else if isFile (cs! \".jarl.toml\") then some (cs! \".jarl.toml\")","  if isFile (cs! \".jarl.toml\") then some (cs! \".jarl.toml\")\n  else if isFile (cs! \"jarl.toml\") then some (cs! \"jarl.toml\")","hidden file first")
m('to25','resolveWithExtend',"  | none, some v => some (defaults ++ v)","  | none, some v => some v","extend replaces","C65",'Cfg.lean')
m('to26','resolveWithExtend',"  | some _, some _ => none\n","  | some v, some w => some (v ++ w)\n","both accepted","C65",'Cfg.lean')
m('to27','implicitDefaults',"cs! \"quote\", ","","a default forgotten","C65",'RReports.lean')
m('to28','defaultSettings',"threshold := 50, skipped := [] }","threshold := 0, skipped := [] }","other default without a file")

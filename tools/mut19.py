M=[]
def m(id,definition,old,new,edit,claim='C73',file='Run.lean'):
    M.append(dict(id=id,file=file,definition=definition,old=old,new=new,edit=edit,claim=claim))
m('ru1','descProbe','| _ => p.dropLast\n  if','| _ => p\n  if',"the DESCRIPTION is looked for below the file",'C71')
m('ru2','descProbe','| none => .unreadable)\n  else .absent','| none => .absent)\n  else .absent',"an unreadable DESCRIPTION is passed over",'C71')
m('ru3','configOf','(paths.map (descProbe w))','((paths.drop 1).map (descProbe w))',"the first file is not used for the R version",'C71')
m('ru4','relText',"if cwd.isPrefixOf p then joinPath (p.drop cwd.length) else '/' :: joinPath p","joinPath (p.drop cwd.length)","files outside of the working directory get a wrong name",'C72')
m('ru5','joinPath',"n ++ '/' :: joinPath (m :: p)","n ++ joinPath (m :: p)","no separators in printed paths",'C72')
m('ru6','dupMap','if Rule.duplicatedFunctionDefinition ∈ cfg.rulesToApply then\n    computeDuplicates w.le o.dupKeys\n','if Rule.duplicatedFunctionDefinition ∈ cfg.rulesToApply then\n    computeDuplicates w.le (o.dupKeys.take 1)\n',"only one package is searched for duplicates",'C72')
m('ru7','unusedMap','(namespaceContents w.pkgFs o.roots) o.unusedKeys','(namespaceContents w.pkgFs (o.roots.take 1)) o.unusedKeys',"only the NAMESPACE of one package is read",'C72')
m('ru8','unusedMap','o.unusedKeys (sharedData w.alnum true','o.unusedKeys.dropLast (sharedData w.alnum true',"the last package is not analysed",'C72')
m('ru9','analysisOf','(reportsFor p (dupMap w cfg o paths)).map','(reportsFor (paths.head?.getD p) (dupMap w cfg o paths)).map',"each file gets the duplicates of the first file",'C72')
m('ru10','analysisOf','unused _ := (entryAfter p (unusedMap w s cfg o paths)).map','unused _ := (entryAfter p (unusedMap w s cfg o paths).reverse).map',"tests entries are replaced by R entries instead of extended",'C72')
m('ru11','fileResult','Io.good (w.text p))','Io.good (w.text (paths.head?.getD p)))',"every file of a group gets the text of the first one",'C72')
m('ru12','fileResult','(relText w.cwd p, lintOnly (w.lints s) (analysisOf w s cfg o paths p)','(relText w.cwd p, lintOnly (w.lints s) (analysisOf w s cfg o paths.dropLast p)',"the package analysis misses the last file",'C72')
m('ru13','runGroup','.ok (g.2.map (fileResult','.ok ((g.2.take 1).map (fileResult',"only the first file of a group is checked",'C72')
m('ru14','runGroup','(fileResult w ((groupSettings items g.1).getD defaultSettings) cfg','(fileResult w defaultSettings cfg',"rule options of jarl.toml are not used on the command line",'C73')
m('ru15','runGroups','return rs ++ rest','return rest',"only the last group is reported",'C72')
m('ru16','runGroups','| g :: gs => do\n    let rs ← runGroup w a items o g\n','| g :: gs => do\n    let rs := match runGroup w a items o g with | .ok rs => rs | .error _ => []\n',"a group with an invalid configuration is passed over",'C72')
m('ru17','runCheck','if o.files.isEmpty then .ok ⟨.success, [], []⟩','if o.files.length ≤ 1 then .ok ⟨.success, [], []⟩',"a single file is not checked",'C73')
m('ru18','foundFiles','checkedFiles w.tree w.git ex (w.first ex) a.noDefaultExclude a.paths','checkedFiles w.tree w.git ex (w.first ex) a.noDefaultExclude (a.paths ++ a.paths.take 1)',"the first argument is walked twice",'C72')
m('ru19','siblingRFiles','(es.map (fun e => d ++ [e.1])).filter isRFile','((es.map (fun e => d ++ [e.1])).filter isRFile).filter (fun p => p ≠ f)',"the open file is missing from its siblings",'C73')
m('ru20','siblingRFiles',"d.getLast? = some ['R'] ∧ w.exists","d.getLast? = some ['r'] ∧ w.exists","the directory is called r",'C73')
m('ru21','siblingRFiles','w.exists (d.dropLast ++ [cs! "DESCRIPTION"])','w.exists (d ++ [cs! "DESCRIPTION"])',"the DESCRIPTION is looked for in R/",'C73')
m('ru22','editorConfig','some (s, configOf w {} s [f])','some (s, configOf w { select := cs! "ALL" } s [f])',"all rules run in the editor",'C73')
m('ru23','editorConfig','some (s, configOf w {} s [f])','some (s, configOf w {} none [f])',"the editor does not use the rules of jarl.toml",'C73')
m('ru24','editorAnalysis','(analysisOf w s cfg o paths f,','(analysisOf w s cfg o [f] f,',"the editor analyses the open file only (orders aside)",'C73')
m('ru25','editorAnalysis','| none => (⟨fun _ => [], fun _ => []⟩, 0)','| none => (⟨fun _ => [([], ⟨0, 0⟩, [])], fun _ => []⟩, 0)',"a file outside of packages gets a report",'C73')
m('ru26','editorNamed','| some s => ((s.linter.select.getD []) ++ (s.linter.extendSelect.getD [])).any','| some s => (s.linter.select.getD []).any',"extend-select does not name the rule in the editor",'C73')
m('ru27','editorContext','{ path := relText w.cwd f','{ path := joinPath f',"the editor uses another path",'C73')
m('ru28','editorLint','lintDocument (w.lints (s.getD defaultSettings))','lintDocument (w.lints defaultSettings)',"rule options of jarl.toml are not used in the editor",'C73')
m('ru29','editorContext','threshold := match s with | none => 50 | some s => s.threshold','threshold := match s with | none => 50 | some _ => 50',"threshold-ignore has no effect in the editor",'C45')
m('ru30','filesBelowIn','filesBelow (p ++ [n]) t ++ filesBelowIn p es','filesBelow (p ++ [n]) t',"only the first entry of a directory is looked at",'C72')
m('ru31','FileWorld.below','| some (.dir es) => filesBelowIn d es','| some (.dir es) => filesBelowIn d es ++ filesBelowIn d es',"files are listed twice",'C72')
m('ru32','addToGroup','if k = key then (k, fs ++ [f]) :: gs','if k = key then (k, [f]) :: gs',"each group keeps its last file only",'C72','Discovery.lean')
m('ru33','groupSettings','(items.find? (fun x => x.1 = dir)).map Prod.snd','(items.head?).map Prod.snd',"the first jarl.toml is used for all groups",'C73','Discovery.lean')
m('ru34','hideUnusedLsp','else if total > threshold then ds.filter (fun d => d.name ≠ Rule.unusedFunction.name)','else if total > threshold then []',"too many unused functions hide all reports",'C73','LspActions.lean')
m('ru35','sharedData','given.filterMap (fun p => scanFile alnum unused fs p .r) ++\n  (roots','given.filterMap (fun p => scanFile alnum unused fs p .r) ++ given.filterMap (fun p => scanFile alnum unused fs p .r) ++\n  (roots',"given files are scanned twice",'C72','Package.lean')
m('ru36','excludedR',".filter (fun p => !given.contains p)\n","\n","files of R/ are scanned twice when given",'C73','Package.lean')
m('ru37','excludedR',"((fs.below (root ++ [['R']])).filter isRFile).filter (fun p => !given.contains p)","[]","files of R/ that are not given are not scanned",'C73','Package.lean')
m('le1','matchesPattern','(splitOn \'/\' np).any (fun c => decide (c = dir))','decide ((splitOn \'/\' np).head? = some dir)',"directory patterns match the first component only",'C70','LspExclude.lean')
m('le2','shouldExcludeBySettings','(if s.defaultExclude.getD true then defaultExcludePatterns else [])','(if s.defaultExclude.getD false then defaultExcludePatterns else [])',"default patterns only if asked for",'C70','LspExclude.lean')
m('le3','shouldExcludeBySettings','if !inc.isEmpty && !(inc.any (matchesPattern path)) then true else false','if !(inc.any (matchesPattern path)) then true else false',"an empty include list leaves out everything",'C70','LspExclude.lean')
m('le4','globBranch','if ps ≠ [] ∧ endsWith (parts.getLast?.getD []) filename = false then false\n      else','if false then false else',"the end of the name is not compared",'C70','LspExclude.lean')
m('le5','globBranch','| none => false\n    | some rest','| none => partsInOrder ps filename\n    | some rest',"the start of the name is not compared",'C70','LspExclude.lean')
m('le6','matchesPattern',"else decide (lastComponent np = pattern)","else decide (np = pattern)","names are compared with the whole path",'C70','LspExclude.lean')

M=[]
def m(id,definition,old,new,edit,claim='C68',file='Walk.lean'):
    M.append(dict(id=id,file=file,definition=definition,old=old,new=new,edit=edit,claim=claim))
m('wa1','segMatch',"(p = '?' || p = c)","(p = c)","? only matches itself")
m('wa2','pathMatch','if g = cs! "**" then (tailsOf r).any (pathMatch gs)','if g = cs! "**" then ((tailsOf r).take 2).any (pathMatch gs)',"** matches at most one directory")
m('wa3','addLine',"let absolute := line.head? = some '/'","let absolute := false","a slash in front is not special")
m('wa4','addLine',"!line.contains '/' && line ≠","line ≠","patterns with a slash match anywhere")
m('wa5','addLine','let actual := if endsWith (cs! "/**") actual then actual ++ cs! "/*" else actual','',"dir/** also matches dir itself")
m('wa6','WalkGlob.hits','(!g.onlyDir || isDir) && ','',"dir/ also matches a file of that name")
m('wa7','excludedBy','patterns.any','patterns.all',"all patterns have to match")
m('wa8','includeGlob',"let line := if endsWith ['/'] pattern then pattern ++ cs! \"**\" else pattern","let line := pattern","include = dir/ matches directories only, so no file")
m('wa9','includedBy','| none => false','| none => true',"files that match no include pattern are kept")
m('wa10','isHidden',"(fileNameOf p).head? = some '.'","false","hidden files are checked")
m('wa11','stripRoot','if r.isPrefixOf p then p.drop r.length else [] :: p','[] :: p',"patterns with a slash are compared with the absolute path")
m('wa12','walkPatterns','s.exclude.getD [] ++ (if s.defaultExclude.getD true','s.exclude.getD [] ++ (if s.defaultExclude.getD false',"default patterns only if asked for")
m('wa13','walkPatterns','| none => if noDefaultExclude then [] else defaultExcludePatterns','| none => []',"no default patterns without a configuration")
m('wa14','skipEntry','| .ignore => true\n    | .whitelist => false','| .ignore => true\n    | .whitelist => isHidden p',"hidden files that git lists explicitly are skipped")
m('wa15','skipEntry','| .ignore => true\n    | .whitelist => false\n    | .none => isHidden p\n\nmutual\n/-- `FilesVisitor','| .ignore => isDir\n    | .whitelist => false\n    | .none => isHidden p\n\nmutual\n/-- `FilesVisitor',"files that git ignores are checked")
m('wa16','visitEntry','if hasCheckedExtension p then [p] else []','[p]',"all files are checked")
m('wa17','visitEntries','visitEntry skip (p ++ [n]) t) ++ visitEntries skip p es','visitEntry skip (p ++ [n]) t)',"only the first entry of a directory")
m('wa18','visitEntries','(if skip (p ++ [n]) t.isDir then [] else visitEntry','(if skip (p ++ [n]) false then [] else visitEntry',"patterns of directories have no effect")
m('wa19','visitArg','| some .file => [some a]','| some .file => if hasCheckedExtension a then [some a] else []',"explicit files need an extension")
m('wa20','visitArg','| none => [none]','| none => [some a]',"a missing argument is passed on as a file")
m('wa21','keepFile','excludedBy ex rel false then false','excludedBy ex rel true then false',"exclude = x.R/ leaves out the file x.R")
m('wa22','keepFile','let rel := f.drop root.length','let rel := f',"patterns with a slash are compared with the absolute path")
m('wa23','keepFile','if !inc.isEmpty && !includedBy inc rel then false else true','if !includedBy inc rel then false else true',"an empty include list leaves out everything")
m('wa24','keepFile','if !ex.isEmpty && excludedBy ex rel false then false\n    else','if false then false\n    else',"explicit files cannot be excluded")
m('wa25','overrideDefault','{ x.2 with defaultExclude := some false }','{ x.2 with defaultExclude := x.2.defaultExclude.or (some false) }',"--no-default-exclude loses against jarl.toml")
m('wa26','collectVisits','ends.flatMap','(ends.take 12).flatMap',"only 12 threads are collected")
m('wa27','collectVisits','ends.flatMap (fun t => (visits.filter (fun v => v.1 = t)).map Prod.snd)','match ends.getLast? with | some t => (visits.filter (fun v => v.1 = t)).map Prod.snd | none => []',"the last thread replaces the list")
m('wa28','skipNested','| .none => isHidden p\n\nmutual\n/-- The directories','| .none => isDir\n\nmutual\n/-- The directories',"no nested configuration is found")
m('wa29','listDirsIn','listDirs skip (p ++ [n]) t) ++ listDirsIn skip p es','listDirs skip (p ++ [n]) t)',"only the first entry of each directory is searched for configurations")
m('wa30','excludeGlob','addLine false (trimEnd pattern)','addLine false (trimEnd (pattern.drop 1))',"the first character of a pattern is lost")
m('wa31','hasCheckedExtension','hasRExtension (fileNameOf p) || hasRmdExtension (fileNameOf p)','hasRExtension (fileNameOf p)',"documents are not found")
m('wa32','skipEntry','if excludedBy (walkPatterns first noDefaultExclude) (stripRoot (first.map Prod.fst) p) isDir then true\n  else match git p isDir with','match git p isDir with',"no pattern is used by the walker")

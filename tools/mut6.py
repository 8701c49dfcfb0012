M=[]
def m(id,file,definition,old,new,edit,claim):
    M.append(dict(id=id,file=file,definition=definition,old=old,new=new,edit=edit,claim=claim))
D='Package.lean'
m('pk1',D,'symbolsOf','cs.dropWhile symChar) else','cs) else','rescans inside an identifier','C49_reported')
m('pk2',D,'skippedComment'," && !startsWith ['#', '\\''] (trimStart line)",'','roxygen comments skipped too','C49_reported')
m('pk3',D,'skippedComment',"startsWith ['#'] (trimStart line) &&","startsWith ['#'] line &&",'indented comments scanned','C49_reported')
m('pk4',D,'symChar','c.isAlphanum || dotUnder c','c.isAlpha || dotUnder c','digits end identifiers','C49_reported')
m('pk5',D,'afterAssign'," && !startsWith ['=', '='] s",'','comparison taken for assignment','C48_symbols')
m('pk6',D,'afterAssign',"some (trimStart (s.drop 1))","some (s.drop 1)",'blank after = not skipped','C48')
m('pk7',D,'isFunctionRhs',"some (c :: _) => !wordChar alnum c","some (c :: _) => true",'functional <- functionals','C48')
m('pk8',D,'isFunctionRhs',"| some [] => true","| some [] => false",'function at end of line missed','C48')
m('pk9',D,'isFunctionRhs'," || startsWith ['\\\\'] rhs",'','lambdas missed','C48')
m('pk10',D,'definedName',"if isWs c || c == '#' then none","if c == '#' then none",'indented definitions','C48')
m('pk11',D,'stripEols',"(l.reverse.dropWhile (· == '\\n')).dropWhile (· == '\\r')","(l.reverse.dropWhile (· == '\\n'))",'carriage return kept','C48')
m('pk12',D,'scanLines',"⟨name, ⟨off, off + blen name⟩, no⟩","⟨name, ⟨off, off + name.length⟩, no⟩",'length in characters','C48')
m('pk13',D,'scanLines',"| none => scanLines alnum (off + blen l) (no + 1) ls","| none => scanLines alnum (off + blen l) no ls",'line number only counts definitions','C48')
m('pk14',D,'scanAssigns',"scanLines alnum 0 1","scanLines alnum 0 0",'lines from 0','C48')
m('pk15',D,'dupFile',"seen ++ [(a.name, path, a.line)]","seen",'definition not remembered','C48')
m('pk16',D,'dupFiles',"dupFiles r.1 fs","dupFiles seen fs",'definitions of earlier files forgotten','C48')
m('pk17',D,'computeDuplicates',"f.scope = .r && f.rootKey = k","f.rootKey = k",'tests counted','C48')
m('pk18',D,'computeDuplicates',".mergeSort (fun a b => le a.path b.path))",")",'files not sorted','C48')
m('pk19',D,'wordBefore',"c.isAlphanum || c == '_'","c.isAlpha || c == '_'",'digit before directive','C49_namespace')
m('pk20',D,'extractDirective',"(splitLast ')' rest).map Prod.fst","some (rest.takeWhile (· != ')'))",'first closing parenthesis','C49_namespace')
m('pk21',D,'unquote',"trimMatches '\\'' (trimMatches '\"' (trim s))","trimMatches '\"' (trimMatches '\\'' (trim s))",'order of quotes','C49_namespace')
m('pk22',D,'exportNames',".filter (fun n => n ≠ [])","",'empty names kept','C49_namespace')
m('pk23',D,'afterColons',"| some (a, _) => a.reverse\n  | none => s","| some (a, _) => a.reverse\n  | none => []",'generic without package lost','C49_namespace')
m('pk24',D,'s3Names',"[afterColons (unquote g) ++ ['.'] ++ unquote c]","[unquote g ++ ['.'] ++ unquote c]",'package prefix kept','C49_namespace')
m('pk25',D,'s3Names',"| _ :: _ :: f :: _ => if unquote f = [] then [] else [unquote f]","| [_, _, f] => if unquote f = [] then [] else [unquote f]",'four arguments','C49_namespace')
m('pk26',D,'patternNames',"| some m => all.filter m\n  | none => []","| some m => all.filter m\n  | none => all",'invalid pattern exports all','C49_namespace')
m('pk27',D,'namespaceLine',"if t = [] || startsWith ['#'] t then []","if t = [] then []",'comments parsed','C49_namespace')
m('pk28',D,'namespaceLine',"| some inner => exportNames inner\n            | none => []","| some inner => []\n            | none => []",'exportClasses ignored','C49_namespace')
m('pk29',D,'packageHooks',", cs! \".First.lib\"","",'hook missing','C49_reported')
m('pk30',D,'probableS3',"(pre ++ [c]) cs","pre cs",'only first part','C49_reported')
m('pk31',D,'probableS3',"c == '.' && symbols.contains pre","symbols.contains pre",'any prefix','C49_reported')
m('pk32',D,'unusedInR',"occurrencesIn rfiles a.name ≤ definitionsIn rfiles a.name","occurrencesIn rfiles a.name < definitionsIn rfiles a.name",'strict comparison','C49_reported')
m('pk33',D,'unusedInR',"occurrencesIn rfiles a.name ≤ definitionsIn rfiles a.name","occurrencesIn rfiles a.name ≤ 1",'definitions not counted','C49_reported')
m('pk34',D,'unusedInR'," && !(extra.flatMap (·.symbols)).contains a.name",'','uses in tests ignored','C49_reported')
m('pk35',D,'unusedInScope',"!env.skipped a.name && ","",'skipped option ignored in tests','C49_tests')
m('pk36',D,'unusedPackage',"nonEmptyOp .extend f.path (unusedReports (unusedInScope env tests) f)","nonEmptyOp .extend f.path (unusedReports (unusedInScope env extra) f)",'scope mixed','C49_tests')
m('pk37',D,'unusedPackage',"| none => []\n    | some ns","| none => rfiles.flatMap (fun f => nonEmptyOp .insert f.path (unusedReports (unusedInR env [] rfiles []) f))\n    | some ns",'no NAMESPACE: all reported','C49_no_namespace')
m('pk38',D,'applyOp',"if q = p then acc ++ l else acc","if q = p then l else acc",'extend replaces','C49 (paths given twice)')
m('pk39',D,'isRFile'," || fileExt p = some ['R']",'','only .r','C48/C49')
m('pk40',D,'isCppFile',' || fileExt p = some (cs! "hpp")','','hpp missed','C49_reported')
m('pk41',D,'inPackageR',"n = ['R'] && fs.description d.dropLast","n = ['R']",'no DESCRIPTION needed','C48')
m('pk42',D,'fileScope',"else if c = cs! \"src\" then .src\n    else","else",'src not recognised','C49')
m('pk43',D,'findPkgRoot',"(ancestors d).find?","(ancestors d).reverse.find?",'outermost package','C49')
m('pk44',D,'excludedR',".filter (fun p => !given.contains p)","",'given files twice','C48/C49')
m('pk45',D,'extraFiles',"((fs.below (root ++ [cs! \"tests\"])).filter isRFile) ++ ","",'tests not read','C49')
m('pk46',D,'sharedData',"(roots.flatMap (excludedR fs given)).filterMap (fun p => scanFile alnum unused fs p .r) ++","",'files not given forgotten','C48/C49')
m('pk47',D,'scanFile',"if scope = .src then [] else scanAssigns alnum content","scanAssigns alnum content",'definitions in src','C49')
m('pk48',D,'scanFile',"some ⟨root ++ [['R']], p, root, asg, syms, scope⟩","some ⟨root, p, root, asg, syms, scope⟩",'other key','C49')
m('pk49',D,'fileExt',"if a = [] then none else some e","some e",'.R as extension','C48/C49')
m('pk50',D,'namespaceContents',"if r ∈ roots then fs.read (r ++ [cs! \"NAMESPACE\"]) else none","fs.read (r ++ [cs! \"NAMESPACE\"])",'(equivalent when roots hold)','C49')

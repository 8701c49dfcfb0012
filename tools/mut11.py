M=[]
def m(id,definition,old,new,edit,claim='C58',file='Output.lean'):
    M.append(dict(id=id,file=file,definition=definition,old=old,new=new,edit=edit,claim=claim))
J='Json.lean'
m('ou1','escChar',"if c = '\"' then ['\\\\', '\"']\n  else if","if","quote not escaped",'C60',J)
m('ou2','escChar',"  else if c = '\\n' then ['\\\\', 'n']\n","","line break written as \\u000a: equivalent for a reader",'C60',J)
m('ou3','escChar',"hexDigit (c.toNat / 16), hexDigit (c.toNat % 16)]","hexDigit (c.toNat % 16), hexDigit (c.toNat / 16)]","hex digits swapped",'C60',J)
m('ou4','escChar',"c.toNat < 32 then","c.toNat < 31 then","control character 31 not escaped",'C60',J)
m('ou5','prettyElems',"[','] ++ jsonLine level ++ x.pretty level ++ prettyElems","jsonLine level ++ x.pretty level ++ prettyElems","comma forgotten",'C60',J)
m('ou6','prettyFields',"jsonStr k ++ cs! \": \" ++ x.pretty level ++ prettyFields","jsonStr k ++ cs! \" \" ++ x.pretty level ++ prettyFields","colon forgotten",'C60',J)
m('ou7','relativize',"(stripPrefix (cwd ++ ['/']) path).getD path","(stripPrefix cwd path).getD path","separator kept in front of the path")
m('ou8','Diagnostic.text',"some s => d.body ++ [' '] ++ s","some s => d.body","suggestion dropped")
m('ou9','errShown',"if e = .parse then (errChain env path e).getLast?.getD []","if e ≠ .parse then (errChain env path e).getLast?.getD []","root cause shown for the other errors")
m('ou10','conciseLine',"digits row ++ cs! \":\" ++ digits (col + 1) ++\n      cs! \"] \"","digits row ++ cs! \":\" ++ digits col ++\n      cs! \"] \"","column counted from 0")
m('ou11','conciseLine',"cs! \" [\" ++ digits row ++ cs! \":\" ++ digits (col + 1)","cs! \" [\" ++ digits (col + 1) ++ cs! \":\" ++ digits row","row and column swapped")
m('ou12','githubLine',"cs! \",col=\" ++\n      digits (col + 1)","cs! \",col=\" ++\n      digits col","column counted from 0",'C59')
m('ou13','githubLine',"cs! \"),file=\"","cs! \") file=\"","comma forgotten",'C59')
m('ou14','githubLine',"cs! \"::\" ++ d.filename ++ cs! \":\" ++ digits row","cs! \":\" ++ d.filename ++ cs! \":\" ++ digits row","one colon only",'C59')
m('ou15','githubLine',"line (cs! \"[\" ++ d.name ++ cs! \"] \" ++ d.text))","(cs! \"[\" ++ d.name ++ cs! \"] \" ++ d.text))","line break forgotten",'C59')
m('ou16','emitConcise',"⟨s, errLines env errors⟩","⟨s ++ errLines env errors, []⟩","errors on standard output")
m('ou17','emitAll',"return a ++ b","return b ++ a","report in reverse order")
m('ou18','diagJson',"(cs! \"row\", .num row), (cs! \"column\", .num col)","(cs! \"row\", .num col), (cs! \"column\", .num row)","row and column swapped",'C60')
m('ou19','diagJson',"(cs! \"to_skip\", .bool d.fix.toSkip)","(cs! \"to_skip\", .bool (!d.fix.toSkip))","flag inverted",'C60')
m('ou20','diagJson',"(cs! \"end\", .num d.fix.stop)","(cs! \"end\", .num d.fix.start)","end of the fix wrong",'C60')
m('ou21','report',"(errors.map (errJson env))","[]","errors not in the JSON report",'C60')
m('ou22','errJson',"((cs! \": \").intercalate (errChain env e.1 e.2))","((errChain env e.1 e.2).head?.getD [])","only the outermost message",'C60')
m('ou23','emitFull',"⟨s, errLines env errors ++","⟨s,","errors not printed in the full format",'C58')
m('ou24','sectionHeader',"cs! \" ──\"","cs! \" --\"","title written differently",'C61')
m('ou25','fixLines',"if nUnsafe = 0 then line (digits nSafe ++","if nUnsafe ≤ 1 then line (digits nSafe ++","one hidden fix not mentioned",'C61')
m('ou26','fixLines',"(if nUnsafe = 1 then cs! \"1 fix is\"","(if nUnsafe ≤ 2 then cs! \"1 fix is\"","two fixes counted as one",'C61')
m('ou27','summary',"if 1 < total then line","if 2 < total then line","two errors counted as one",'C61')
m('ou28','summary',"(ds.filter Diagnostic.hasSafeFix).length (ds.filter Diagnostic.hasUnsafeFix).length","(ds.filter Diagnostic.hasUnsafeFix).length (ds.filter Diagnostic.hasSafeFix).length","safe and unsafe swapped",'C61')
m('ou29','summary',"if env.hint < (total : Int) then","if env.hint ≤ (total : Int) then","hint one too early",'C61')
m('ou30','summary',"else if hasErrors then [] else","else","all checks passed although files failed",'C61')
m('ou31','summary',"else if hasErrors then [] else","else if !hasErrors then [] else","condition inverted",'C61')
m('ou32','section_',"if items.isEmpty then [] else line","if false then [] else line","empty sections printed",'C61')
m('ou33','setInsert',"| .eq => t :: ts","| .eq => s :: t :: ts","names kept twice",'C62')
m('ou34','explicitNames',"[args.select, args.extendSelect, args.ignore].flatMap","[args.select, args.extendSelect].flatMap","--ignore forgotten",'C62')
m('ou35','explicitNames',"((splitOn ',' s).map trim)","(splitOn ',' s)","blanks not trimmed",'C62')
m('ou36','explicitNames',"[i.linter.select, i.linter.extendSelect, i.linter.ignore].flatMap","[i.linter.select, i.linter.ignore].flatMap","extend-select of jarl.toml forgotten",'C62')
m('ou37','explicitNames',"(cli ++ toml).foldl","(if cli.isEmpty then toml else cli).foldl","jarl.toml not looked at if rules are on the command line",'C62')
m('ou38','deprecationWarning',"++ cs! \". Use `\" ++ repl ++","++ cs! \". Use `\" ++ name ++","wrong replacement",'C62')
m('ou39','warnings',"(explicitNames args items).filterMap deprecationWarning","(explicitNames args items).filterMap deprecationWarning ++ (explicitNames args items).filterMap deprecationWarning","warnings twice",'C62')
m('ou40','OutputFormat.human',"| .full | .concise => true\n  | .github | .json => false","| .full | .concise | .json => true\n  | .github => false","summary behind the JSON document",'C60')
m('ou41','OutputFormat.human',"| .full | .concise => true\n  | .github | .json => false","| .full => true\n  | .concise | .github | .json => false","no summary in the concise format",'C61')
m('ou42','emit',"| .json => emitJson env ds errors\n  | .github => emitGithub ds","| .json => emitJson env ds []\n  | .github => emitGithub ds","errors not passed on",'C60')
m('ou43','checkOutput',"(!(allErrors rs).isEmpty)","(allErrors rs).isEmpty","flag inverted",'C61')
m('ou44','checkOutput',"flatSorted (hideUnused args.toCheckArgs items all)\n    if","flatSorted all\n    if","hidden reports printed",'C60')
m('ou45','warnings',"if unusedHidden args.toCheckArgs items all then","if !unusedHidden args.toCheckArgs items all then","warning about hidden reports when none are hidden",'C62')
m('ou46','warnings',"digits (unusedCount all) ++ cs! \" `unused","digits all.length ++ cs! \" `unused","wrong number of hidden reports",'C62')
m('ou47','warnings',"(args.oldSyntax.filter id).map","args.oldSyntax.map","warning about the old syntax always",'C62')
m('ou48','statLine',"if e.2.2 then cs! \"*\" else cs! \" \"","if e.2.2 then cs! \" \" else cs! \"*\"","stars inverted",'C30')
m('ou49','statisticsText',"if ds.isEmpty then line (cs! \"All checks passed!\")","if false then line (cs! \"All checks passed!\")","nothing said if nothing was found",'C30')
m('ou50','right5',"List.replicate (5 - s.length) ' ' ++ s","List.replicate (5 - s.length) ' ' ++ s.take 5","numbers cut",'C30')
m('tg1','Frame.fill','','','', 'C57')
M=[x for x in M if x['old']]

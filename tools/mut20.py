M=[]
def m(id,definition,old,new,edit,claim='C74',file='RunFix.lean'):
    M.append(dict(id=id,file=file,definition=definition,old=old,new=new,edit=edit,claim=claim))
m('rf1','fixGroup','if (cfg.applyFixes || cfg.applyUnsafeFixes) && !checkVersionControl (git w.text) cfg (paths.map (relText w.cwd)) then','if false then',"git is not asked",'C75')
m('rf2','fixGroup','!checkVersionControl (git w.text) cfg (paths.map (relText w.cwd))','!checkVersionControl (git w.text) cfg ((paths.take 1).map (relText w.cwd))',"git is asked for the first file only",'C75')
m('rf3','fixGroup','if (cfg.applyFixes || cfg.applyUnsafeFixes) && !check','if cfg.applyFixes && !check',"git is not asked with --unsafe-fixes only",'C75')
m('rf4','fixGroup','(w.text, some [(relText w.cwd first, .error .vcs)])','(w.text, some [])',"the refusal is not reported",'C75')
m('rf5','fixGroup','(fun p => if p ∈ paths then (fixFile w s cfg o paths io fuel p).1 else w.text p,','(fun p => (fixFile w s cfg o paths io fuel p).1,',"all files of the project are fixed",'C74')
m('rf6','fixGroup','(fun p => if p ∈ paths then (fixFile w s cfg o paths io fuel p).1 else w.text p,','(fun p => if p ∈ paths then (fixFile w s cfg o paths io fuel p).1 else none,',"other files are lost",'C74')
m('rf7','fixGroup','allDone (paths.map (fun p => (relText w.cwd p, (fixFile w s cfg o paths io fuel p).2))))','allDone ((paths.take 1).map (fun p => (relText w.cwd p, (fixFile w s cfg o paths io fuel p).2))))',"only the first file is reported",'C74')
m('rf8','fixFile','(io p) fuel (w.text p)','(io p) fuel (w.text (paths.head?.getD p))',"every file gets the text of the first one",'C74')
m('rf9','fixFile','checkPath (w.lints s)','checkPath (w.lints defaultSettings)',"the rule options are not used when fixing",'C74')
m('rf10','fixFile','checkPath (w.lints s) (analysisOf w s cfg o paths p) cfg (relText w.cwd p)','checkPath (w.lints s) (analysisOf w s cfg o paths p) cfg (joinPath (p.drop (w.cwd.length + 1)))',"names lose a directory",'C74')
m('rf11','allDone','| some r, some rs => some ((n, r) :: rs)','| some _, some rs => some rs',"results are dropped",'C74')
m('rf12','allDone','| _, _ => none','| _, _ => some []',"unfinished files are passed over",'C74')
m('rf13','fixGroups','match fixGroups w git a items o io fuel gs t\' with','match fixGroups w git a items o io fuel gs w.text with',"each group starts from the old texts: earlier fixes are lost",'C74')
m('rf14','fixGroups','match fixGroups w git a items o io fuel gs t\' with','match fixGroups w git a items o io fuel gs t with',"each group forgets the one before",'C74')
m('rf15','fixGroups','| .error e => (t, some (.error e))','| .error _ => fixGroups w git a items o io fuel gs t',"a group with an invalid configuration is passed over",'C75')
m('rf16','fixGroups','(t\'\', some (.ok (rs ++ rest)))','(t\'\', some (.ok rest))',"only the last group is reported",'C74')
m('rf17','fixGroups','((groupSettings items g.1).getD defaultSettings) cfg (o.pkg g.1) io fuel g.2','((groupSettings items none).getD defaultSettings) cfg (o.pkg g.1) io fuel g.2',"the settings of jarl.toml are not used by the rules",'C74')
m('rf18','fixGroups','configOf { w with text := t } a.config (groupSettings items g.1) g.2','configOf { w with text := t } a.config none g.2',"the rules of jarl.toml are not used",'C74')
m('rf19','runFix','if o.files.isEmpty then','if o.files.length ≤ 1 then',"a single file is not checked",'C74')
m('rf20','runFix','| (t, some (.error _)) => (t, some (.error ()))','| (t, some (.error _)) => (t, some (.ok ⟨.success, [], []⟩))',"an invalid configuration is not an error",'C74')
m('rf21','runFix','| (t, some (.ok rs)) => (t, some (cliReport a.checkArgs (resolvedItems items) rs))','| (_, some (.ok rs)) => (w.text, some (cliReport a.checkArgs (resolvedItems items) rs))',"the fixes are not written",'C74')
m('rf22','runFix','| (t, some (.ok rs)) => (t, some (cliReport a.checkArgs (resolvedItems items) rs))','| (t, some (.ok rs)) => (t, some (cliReport a.checkArgs (resolvedItems items) (rs.take 1)))',"one file is reported",'C74')
m('rf23','fixGroup','!checkVersionControl (git w.text) cfg (paths.map (relText w.cwd))','checkVersionControl (git w.text) cfg (paths.map (relText w.cwd))',"the guard is negated",'C75')
m('rf24','runFix','match fixGroups w git a items o io fuel o.groups w.text with','match fixGroups w git a items o io fuel (o.groups.take 1) w.text with',"only one configuration is treated",'C74')
m('rf25','checkVersionControl','if cfg.allowNoVcs then true','if cfg.allowNoVcs || cfg.allowDirty then true',"--allow-dirty allows files without a repository",'C75','LintFix.lean')
m('rf26','lintFix','if hasRmdExtension path then','if false then',"documents are fixed",'C74','LintFix.lean')
m('rf27','lintFixLoop','lintFixLoop L pkg cfg path io fuel (n + 1) skipped\' (some text)','lintFixLoop L pkg cfg path io fuel (n + 1) true (some text)',"passes go on for ever",'C74','LintFix.lean')
m('rf28','lintFixLoop','if !skipped then (d, some (.ok checks))','if !skipped then (d, some (.ok []))',"what remains is not reported",'C74','LintFix.lean')

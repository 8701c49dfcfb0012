M=[]
def m(id,file,definition,old,new,edit,claim):
    M.append(dict(id=id,file=file,definition=definition,old=old,new=new,edit=edit,claim=claim))
# Fix
m('fix1','Fix.lean','fixStep','if start < st.lastPos then some','if start ≤ st.lastPos then some','skip test `<` becomes `<=` (adjacent fixes and the first fix at 0 are skipped)','C18/C20: disjoint fixes are all applied; placeholder-only pass is no skip')
m('fix2','Fix.lean','fixStep','lastPos := stop + diff, skipped','lastPos := stop, skipped','last_modified_pos = end instead of end + diff','behaviour on shrinking/growing fixes (C19)')
m('fix3','Fix.lean','fixStep','then some { st with skipped := true }','then some st','has_skipped_fixes is never set','C19: a skipped fix is reported')
m('fix4','Fix.lean','replaceRange','some (_, q) => some (p ++ new ++ q)','some (o, q) => some (p ++ new ++ o ++ q)','the fix is inserted, the old text is kept','C18')
m('fix5','Fix.lean','fixStep','let diff := st.newLen - oldLen','let diff := oldLen - st.newLen','offset correction has the wrong sign','C18')
m('fix6','Fix.lean','fixStep','some c => some { content := c, lastPos := stop + diff, skipped := st.skipped,','some c => some { content := c, lastPos := st.lastPos, skipped := st.skipped,','last_modified_pos is never updated','C19: overlapping fixes must not both be applied')
m('fix7','Fix.lean','fixStep','newLen := (c.length : Int) }','newLen := st.newLen }','new_length is not updated after a fix','C18: later fixes land at the wrong offset')
m('fix8','Fix.lean','applyFixes','fixLoop n fixes ⟨contents, 0, false, n⟩','fixLoop n fixes ⟨contents, 0, true, n⟩','the skipped flag starts as true','C20/C22: a pass that skips nothing is the last')
# Location
m('loc1','Location.lean','findRowCol','if last = 0 then some (n + 1, start)','if last = 0 then some (n, start)','rows count from 0 on the first line','C17 row')
m('loc2','Location.lean','findRowCol','else some (n + 1, start - last - 1)','else some (n + 1, start - last)','column counts the newline','C17 column')
m('loc3','Location.lean','findRowCol','newLines.filter (fun x => x ≤ start)','newLines.filter (fun x => x < start)','newline at the start offset not counted','(equivalent unless a range starts at a newline)')
m('loc4','Location.lean','newLinesFrom',"if c = '\\n' then base :: newLinesFrom (base + c.utf8Size) cs","if c = '\\n' then base :: newLinesFrom (base + 1) cs",'equivalent (newline has one byte)','none: equivalent edit')
m('loc5','Location.lean','newLinesFrom','else newLinesFrom (base + c.utf8Size) cs','else newLinesFrom (base + 1) cs','offsets counted in characters instead of bytes','C17 for non-ASCII text')
# Directive
m('dir1','Directive.lean','parseAfterWord','| some a => if pipe then none else wrapRule .ignoreFile','| some a => if pipe then wrapRule .ignoreFile (parseRuleWithExplanation a) else wrapRule .ignoreFile','`#| jarl-ignore-file` accepted','C11: `#|` never introduces a non-chunk directive')
m('dir2','Directive.lean','parseRuleWithExplanation','if trim after = [] then .missingExplanation else .valid rule','if after = [] then .missingExplanation else .valid rule','a blank explanation is accepted','C11: explanation must not be blank')
m('dir3','Directive.lean','parseAfterWord','| some a => if pipe then none else parseEnd a','| some a => if pipe then none else wrapRule .ignoreEnd (parseRuleWithExplanation a)','-end needs an explanation','C11: -end needs no explanation')
m('dir4','Directive.lean','parseRuleWithExplanation','    let name := trim before\n','    let name := before\n','rule name is not trimmed','C11: blanks around the rule')
m('dir5','Directive.lean','parseAfterWord','wrapRule .ignoreStart (parseRuleWithExplanation a)','wrapRule .ignoreEnd (parseRuleWithExplanation a)','start parsed as end','C11')
m('dir6','Directive.lean','isQuartoHeader','trim text = cs! "#| jarl-ignore-chunk:"','trim text = cs! "#| jarl-ignore-chunk"','array header without colon','C11 array header')
m('dir7','Directive.lean','parseQuartoItem','if !startsWithWs rest && rest ≠ [] then none','if false then none','`#|-rule: x` accepted without blank after the dash','C11 array item')
m('dir8','Directive.lean','stripMarker','match stripPrefix (cs! "# ") text with','match stripPrefix (cs! "#\' ") text with','roxygen marker accepted instead of `# `','C11')
m('dir9','Directive.lean','parseAfterWord','if rest = [] ∨ startsWith (cs! ":") rest = true then\n      if pipe then none else some .blanket','if rest = [] then\n      if pipe then none else some .blanket','`# jarl-ignore: x` not seen as blanket','C11 blanket')
# SuppressionEdit
m('se1','SuppressionEdit.lean','commentLines','cs! "# jarl-ignore " ++ r','cs! "# jarl-ignore" ++ r','missing space in the generated comment','C13')
m('se2','SuppressionEdit.lean','addIgnoreToFile','(fun a b => b.point.offset ≤ a.point.offset)) content','(fun a b => a.point.offset ≤ b.point.offset)) content','edits applied in ascending order','C23/C13: comments inserted at wrong places')
m('se3','SuppressionEdit.lean','mergeStep','{ last with rules := last.rules ++ [e.rule] } :: before','last :: before','second rule at the same point dropped','C23: each rule is named')
m('se4','SuppressionEdit.lean','mergeStep','if e.rule ∈ last.rules then last :: before\n      else { last','if false then last :: before\n      else { last','rule repeated at one point','C23: no rule twice')
m('se5','SuppressionEdit.lean','formatSuppressionComments','(if lead then cs! "\\n" else []) ++','','no leading newline for inline insertion','C13_at_insert_point')
m('se6','SuppressionEdit.lean','computeInlineIndent','some (_, linePrefix) => some (List.replicate (blen linePrefix)','some (pre, _) => some (List.replicate (blen pre)','indent computed from the wrong part','cosmetic indentation only: no claim')
m('se7','SuppressionEdit.lean','findLineStartAndIndent','some (blen pre + 1, (linePrefix','some (blen pre, (linePrefix','insertion before the newline instead of after it','C31: start of the line')
m('se8','SuppressionEdit.lean','mergeEdits','edits.mergeSort (fun a b => a.point.offset ≤ b.point.offset)).foldl','edits).foldl','edits are not sorted before merging','C23: no rule twice at a point')
m('se9','SuppressionEdit.lean','insertStr','some (a, b) => some (a ++ t ++ b)','some (a, _) => some (a ++ t)','rest of file lost','C23')
# Suppression
m('su1','Suppression.lean','suppressedBy','s.rule = rule && s.range.contains d.range','s.rule = rule && decide (s.range.start ≤ d.range.start)','region end ignored','C08')
m('su2','Suppression.lean','applyDirective','some { col with starts := eraseKey (r, level) col.starts, regions','some { col with regions','matched start stays in the map','C12')
m('su3','Suppression.lean','fromNode','containsSub (cs! "jarl-ignore") source','containsSub (cs! "# jarl-ignore") source','fast path needs `# jarl-ignore`','C09')
m('su4','Suppression.lean','suppressedBy','m.file.find? (fun s => s.1 = rule)','m.file.find? (fun _ => true)','a file suppression hides every rule','C08')
m('su5','Suppression.lean','filterLoop','| some c => filterLoop m ds (c :: used)','| some _ => filterLoop m ds used','used suppressions not recorded','C10')
m('su6','Suppression.lean','applyDirective','| none => some { col with unmatchedEnd := col.unmatchedEnd ++ [c] }','| none => some col','unmatched end not recorded','C12')
m('su7','Suppression.lean','visitChildren','(if c.braced then level + 1 else level)','level','nesting level ignored','C12 same nesting level')
m('su8','Suppression.lean','visitChildren','visitChildren source false level cs','visitChildren source first level cs','file suppressions accepted in every child','C08/C16 file suppression only at top')
m('su9','Suppression.lean','processComment','if trailing then some { col with misplaced := col.misplaced ++ [c.range] }\n    else applyDirective','if false then some { col with misplaced := col.misplaced ++ [c.range] }\n    else applyDirective','end-of-line suppressions accepted','C08')
m('su10','Suppression.lean','Collector.finish','hasAny := !c.regions.isEmpty || !c.file.isEmpty || !c.chunk.isEmpty || c.hasValid','hasAny := !c.regions.isEmpty || !c.file.isEmpty || !c.chunk.isEmpty','node suppressions do not count for the fast path','C09/C08')
m('su11','Suppression.lean','unusedSuppressions','(m.node.map (·.comment)).filter (fun r => !used.contains r)','(m.node.map (·.comment)).filter (fun r => used.contains r)','outdated test inverted for node suppressions','C10')
m('su12','Suppression.lean','Range.contains (Diagnostic.lean)','| none => let (kept, used\') := filterLoop m ds used; (d :: kept, used\')','| none => filterLoop m ds used','unsuppressed diagnostics dropped','C08')
m('su13','Suppression.lean','applyDirective','if allowFile then some { col with file','if true then some { col with file','file suppression accepted anywhere','C08')
m('su14','Suppression.lean','suppressedBy','m.node.find? (fun s => s.rule = rule && s.nodeRange.contains d.range)','m.node.find? (fun s => s.rule = rule && d.range.contains s.nodeRange)','containment swapped','C08')
m('su15','Suppression.lean','applyDirective','match Range.new s.start c.stop with','match Range.new s.start c.start with','region stops before the end comment','C12 region extent (spans to the end comment)')
m('su16','Suppression.lean','isSameLineAsCode','between.any (fun c => !isWs c)','between.all (fun c => !isWs c)','trailing test wrong for indented code','C08')
m('su17','Suppression.lean','leadingVisits','  | st, [] => flushHeader st','  | _, [] => []','empty array header at the end not reported','C12-like: blanket report (no claim?)')
# Config
m('cf1','Config.lean','reconcileRules','let ignored := cli.ignored ++ toml.ignored','let ignored := cli.ignored','TOML ignore dropped','C03')
m('cf2','Config.lean','reconcileRules','| some l => base ++ l\n    | none => match toml.extended','| some l => l\n    | none => match toml.extended','--extend-select replaces the base','C02')
m('cf3','Config.lean','filterRulesByVersion','| some rv => rv.le pv)','| some rv => pv.le rv)','version comparison swapped','C05')
m('cf4','Config.lean','filterRulesByVersion','| none => rules.filter (fun r => r.minVersion.isNone)','| none => rules','unknown version allows all rules','C05')
m('cf5','Config.lean','rulesToApply','| true, false => rules.filter (fun r => r.hasNoFix || r.hasSafeFix)','| true, false => rules','unsafe rules kept with --fix','C06')
m('cf6','Config.lean','hasInvalidRules','(trim s).isEmpty || !','!(trim s).isEmpty && !','empty rule names accepted','C04')
m('cf7','Config.lean','replaceGroupRules','else [t]','else [s]','names not trimmed','C02 (trim in hasInvalid hides it: accepted but no effect)')
m('cf8','Config.lean','reconcileRules','match cli.selected with\n    | some l => l\n    | none => match toml.selected with\n      | some l => l','match toml.selected with\n    | some l => l\n    | none => match cli.selected with\n      | some l => l','TOML select wins over the command line','C02')
m('cf9','Config.lean','parseFixableToml','return (fixable, unfixable.getD [])','return (unfixable, fixable.getD [])','fixable and unfixable swapped','C07 end to end (list in the TOML vs config)')
m('cf10','Config.lean','determineMinimumRVersion','  | none => minVersionFromDesc probes','  | none => .ok none','DESCRIPTION ignored','C26_project_version')
m('cf11','Config.lean','parseCliList',"parseList (splitOn ',' s)","parseList (splitOn ' ' s)",'list separated by blanks','C02/C04')
m('cf12','Config.lean','rulesToApply','if fixOnly then rules.filter (fun r => !r.hasNoFix) else toApply','toApply','--fix-only ignored','C06 notes: no claim about fix-only selection')
m('cf13','Config.lean','parseAssignmentCli','if s = cs! "<-" then .ok .arrow\n  else if s = cs! "=" then .ok .equal','if s = cs! "<-" then .ok .equal\n  else if s = cs! "=" then .ok .arrow','operators swapped','no claim')
m('cf14','Config.lean','buildConfig','applyFixes := args.fix, applyUnsafeFixes := args.unsafeFixes','applyFixes := args.fix || args.fixOnly, applyUnsafeFixes := args.fix','unsafe fixes flag taken from --fix','C06: flags')
m('cf15','Config.lean','buildConfig','allowDirty := args.allowDirty, allowNoVcs := args.allowNoVcs','allowDirty := args.allowNoVcs, allowNoVcs := args.allowDirty','flags swapped','C24 end to end')
# Version / Description
m('ve1','Version.lean','parseRVersion','return ⟨x, y, 0⟩','return ⟨y, x, 0⟩','major/minor swapped','C25')
m('ve2','Version.lean','parseRVersion','return ⟨x, y, z⟩','return ⟨x, y, 0⟩','patch dropped','C25')
m('ve3','Version.lean','digitVal','c.toNat ≤ 57','c.toNat ≤ 58','`:` accepted as a digit','C25')
m('ve4','Version.lean','parseDigits','acc * 10 + d < 4294967296','acc * 10 + d < 429496729600','overflow check too lax','C25')
m('de1','Description.lean','lookupLast','l.reverse.find?','l.find?','first Depends instead of last','C26')
m('de2','Description.lean','dcfStep','{ st with value := st.value ++ trim line ++ [\' \'] }','st','continuation lines dropped','C26 folding')
m('de3','Description.lean','getDependRVersion','startsWith (cs! "R ") s','startsWith (cs! "R") s','packages starting with R taken for R','C26')
m('de4','Description.lean','parseDcf','  | some key => st.fields ++ [(key, trim st.value)]\n  | none => st.fields\n\n','  | some _ => st.fields\n  | none => st.fields\n\n','last field dropped','C26')
m('de5','Description.lean','stripEol',"| '\\n' :: '\\r' :: r => r.reverse",'','CRLF not handled','C26 (the specification uses LF only)')
# Rmd
m('rm1','Rmd.lean','extractLoop','if trim line = fence then','if startsWith fence (trim line) then','closing fence by prefix','C14')
m('rm2','Rmd.lean','extractLoop','(some (fence, [], offset + blen line)) lines','(some (fence, [], offset)) lines','chunk start offset is the fence line','C14/C15')
m('rm3','Rmd.lean','extractLoop','  | [] => []\n  | line :: lines =>\n    match current with','  | [] => match current with | some (_, code, start) => [⟨code, start⟩] | none => []\n  | line :: lines =>\n    match current with','unclosed chunk yields a chunk','C14')
m('rm4','Rmd.lean','openFence','if 3 ≤ ticks.length then','if 2 ≤ ticks.length then','two backticks open a chunk','C14')
m('rm5','Rmd.lean','openFence',"(c = 'r' || c = 'R') && opts.contains '}'","(c = 'r' || c = 'R')",'no closing brace needed','C14')
m('rm6','Rmd.lean','extractLoop','(some (fence, code ++ line, start)) lines','(some (fence, line ++ code, start)) lines','lines in reverse order','C14')
# Check
m('ch1','Check.lean','applyFixSettings','  let d := d.clearFixIf (cfg.unfixable.contains d.name)\n','','unfixable ignored','C07')
m('ch2','Check.lean','applyFixSettings','| none => false)','| none => true)','missing fixable list clears all fixes','C07')
m('ch3','Check.lean','remap','fix := Fix.empty, range := d.range.shift offset','fix := Fix.empty, range := d.range','range not shifted','C15')
m('ch4','Check.lean','remap','fix := Fix.empty, range','range','fix kept in Rmd','C15')
m('ch5','Check.lean','demoteFile','if 0 < index then','if 1 < index then','second chunk may hold file suppressions','C16')
m('ch6','Check.lean','applyFileSuppressions','| some r => !fileSupp.any (fun f => f.1 = r)','| some _ => true','file suppressions not applied to other chunks','C16')
m('ch7','Check.lean','gate','if r ∈ rules then ds else []','ds','disabled comment rules reported','C02 end to end: only enabled rules report')
m('ch8','Check.lean','checkDocument','kept ++ gate rules .outdatedSuppression (outdatedDiags (unusedSuppressions m used))','kept','outdated suppressions never reported','C10 end to end')
m('ch9','Check.lean','rawDiagnostics','m.unmatchedStart) ++','m.unmatchedEnd) ++','unmatched starts not reported','C12 end to end: reported as unmatched')
m('ch10','Check.lean','getChecksR','computeLocations (findNewLines t) (ds.map','computeLocations (findNewLines contents) (ds.map','equivalent when newlines searched in whole text','(changes F8)')
m('ch11','Check.lean','dropSpuriousOutdated','violated.contains f.1)).map','!violated.contains f.1)).map','wrong outdated reports dropped','C16/C10 for Rmd')
m('ch12','Check.lean','hasRmdExtension','|| e = cs! "Qmd"','','Qmd not recognised','C21: Rmd/Qmd never written')
m('ch13','Check.lean','computeLocations','{ d with location := some loc } :: rest','{ d with location := none } :: rest','location not stored','C17 end to end')
m('ch14','Check.lean','getChecks','then getChecksRmd L cfg file contents else','then getChecksR L pkg cfg file contents else','Rmd treated as R','C15')
m('ch15','Check.lean','unreachableDiags','if Rule.unreachableCode ∈ inp.ruleSet then L.unreachable inp code else .ok []','.ok []','unreachable code never run','no claim')
m('ch16','Check.lean','rmdStates','return none :: rest','return rest','index unaffected; equivalent','none')
m('ch17','Check.lean','rmdDiagnostics','return ds.map (remap file s.startByte) ++ rest','return ds.map (remap file s.startByte)','later chunks dropped','C15/C16')
# LintFix
m('lf1','LintFix.lean','lintFixLoop','| none => lintFixLoop L pkg cfg path io fuel (n + 1) skipped\' (some text)','| none => (some text, some (.ok checks))','returns stale checks after one pass','C21')
m('lf2','LintFix.lean','lintFix','if hasRmdExtension path then (d, some (lintOnly L pkg cfg path io d))\n  else ','','Rmd files enter the fix loop','C21')
m('lf3','LintFix.lean','checkVersionControl','paths.any (fun p => (v.repo p).isNone)','paths.all (fun p => (v.repo p).isNone)','only fails if all paths are outside','C24')
m('lf4','LintFix.lean','check','if (cfg.applyFixes || cfg.applyUnsafeFixes) && !','if cfg.applyFixes && !','--unsafe-fixes alone is not guarded','C24')
m('lf5','LintFix.lean','checkVersionControl','e.1.isSome && !e.2','e.1.isSome && e.2','dirty test inverted','C24')
m('lf6','LintFix.lean','checkPath','if cfg.applyFixes || cfg.applyUnsafeFixes then lintFix','if cfg.applyFixes then lintFix','--unsafe-fixes alone does not fix','C21/C06 (positive direction)')
m('lf7','LintFix.lean','lintFixLoop','if !skipped then (d, some (.ok checks))','if false then (d, some (.ok checks))','loop never stops','C22')
m('lf8','LintFix.lean','check','  let pkg := analysis d\n','  let pkg := analysis (fun _ => none)\n','package analysis of an empty disk','C21 note')
m('lf9','LintFix.lean','checkPaths','checkPath L pkg cfg p (io p) fuel (d p)','checkPath L pkg cfg p (io p) fuel (d p) |> fun x => (x.1, some (.ok []))','results dropped','C32')
# Schedule
m('sc1','Schedule.lean','stepFile','| none => ⟨some text, .read (n + 1) s⟩','| none => ⟨some text, .read n s⟩','pass counter not increased','C32 (io indexes)')
m('sc2','Schedule.lean','stepWorld','if q = p then stepFile L pkg cfg p (io p) (w p) else w q','if q = p then stepFile L pkg cfg p (io p) (w p) else ⟨(w p).disk, (w q).pc⟩','steps clobber other files','C32')
m('sc3','Schedule.lean','startFile','&& !hasRmdExtension path','','Rmd threads may write','C33_untouched')
# Cli
m('cl1','Cli.lean','diagCmp','| .eq => rangeCmp a.range b.range','| .eq => rangeCmp b.range a.range','ranges sorted descending','C27')
m('cl2','Cli.lean','cliReport','if !(allErrors rs).isEmpty then .error else if kept.isEmpty then .success else .failure','if !kept.isEmpty then .failure else if (allErrors rs).isEmpty then .success else .error','diagnostics win over errors','C28')
m('cl3','Cli.lean','thresholdIgnore','ts.foldl Nat.min t','ts.foldl Nat.max t','largest threshold','C29')
m('cl4','Cli.lean','unusedHidden','decide (thresholdIgnore items < unusedCount all)','decide (thresholdIgnore items ≤ unusedCount all)','hidden at the threshold','C29')
m('cl5','Cli.lean','bump','(k, n + 1, f || d.hasSafeFix) :: rest','(k, n, f || d.hasSafeFix) :: rest','counts stay 1','C30')
m('cl6','Cli.lean','statisticsLines','(entries.mergeSort (fun a b => decide (a.2.1 ≤ b.2.1))).reverse','entries.mergeSort (fun a b => decide (a.2.1 ≤ b.2.1))','ascending order','C30')
m('cl7','Cli.lean','groupByFile','(all.filter (fun x => x.1 = p)).flatMap (·.2)','all.flatMap (·.2)','all diagnostics added to each file','C34')
m('cl8','Cli.lean','hideUnused','ds.filter (fun d => d.name ≠ unusedFunctionName)','ds.filter (fun d => d.name = unusedFunctionName)','hides everything else','C29')
m('cl9','Cli.lean','explicitlySelected','(i.linter.select.getD []) ++ (i.linter.extendSelect.getD [])','(i.linter.select.getD [])','TOML extend-select not looked at','C29')
m('cl10','Cli.lean','ExitStatus.code','| .failure => 1','| .failure => 0','diagnostics exit with 0','C28')
m('cl11','Cli.lean','addIgnores','if edits.isEmpty then addIgnores point reason writeFails rest d','if edits.isEmpty then some d','stops at the first file without edits','C34')
m('cl12','Cli.lean','bump','f || d.hasSafeFix) :: rest else','f) :: rest else','fixable flag of the first diagnostic only','C30 star')
m('cl13','Cli.lean','cliReport','.ok ⟨status, allErrors rs, flat⟩','.ok ⟨status, allErrors rs, (kept.flatMap (·.2))⟩','report not sorted','C27')
m('cl14','Cli.lean','allDiagnostics','| .ok ds => if ds.isEmpty then none else some (r.1, ds)','| .ok ds => if ds.length ≤ 1 then none else some (r.1, ds)','files with a single diagnostic dropped','C27/C28')

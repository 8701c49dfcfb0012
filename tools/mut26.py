"""Mutants of RCheck.lean, the colours and the table of rules."""
def m(id,file,definition,old,new,edit,claim): return dict(id=id,file=file,definition=definition,old=old,new=new,edit=edit,claim=claim,expect='')
R='RCheck.lean'
M=[
m('rc1',R,'noteRange','if n = cs! "for_loop_index" ∨ n = cs! "for_loop_dup_index" then','if n = cs! "for_loop_index" then','for_loop_dup_index reports the whole loop','for_loop_dup_index reports the variable to the end of the sequence (C80)'),
m('rc2',R,'noteRange','partRange src z 2 ((toks s).length + 4)','partRange src z 2 ((toks s).length + 3)','the range ends one token early','for_loop_dup_index reports the variable to the end of the sequence (C80)'),
m('rc3',R,'noteRange','partRange src z 2 ((toks c).length + 2)','partRange src z 2 ((toks c).length + 3)','if_always_true: the range includes the parenthesis','if_always_true reports the condition (C80)'),
m('rc4',R,'fixRange','(if o = .rassign then partRange src ed.z (toks l).length (toks ed.z.e).length else partRange src ed.z 0 ((toks l).length + 1))','(if o = .rassign then partRange src ed.z 0 ((toks l).length + 1) else partRange src ed.z (toks l).length (toks ed.z.e).length)','assignment: the two ranges swapped','assignment reports up to the operator (C80)'),
m('rc5',R,'fixRange','partRange src ed.z 0 ((toks c).length + 3)','partRange src ed.z 0 ((toks c).length + 2)','repeat: without the closing parenthesis','repeat reports while (..) (C80)'),
m('rc6',R,'callRule','    | .error e => .error e\n    | .ok (some s)','    | .error _ => .ok []\n    | .ok (some s)','a failure of a rule is swallowed','code a rule gives up on makes the check fail (C80)'),
m('rc7',R,'callRule','| ed :: eds => .ok ((ed :: eds).map (fixDiag W src n))','| ed :: eds => .ok (eds.map (fixDiag W src n))','the first report is dropped','all code the rule is about is reported (C80)'),
m('rc8',R,'callRule','if n ∈ sayNames then .ok [] else','if n ∉ sayNames then .ok [] else','other reports for the wrong rules','browser etc. report nothing else (C80)'),
m('rc9',R,'inOrder','      | .ok zs => .ok (ys ++ zs)','      | .ok zs => .ok zs','the results of all but the last call are dropped','all rules report (C80)'),
m('rc10',R,'checkExpressions','| .error .error => .error .lint','| .error .error => .error .panic','an error of a rule is a crash','an error of a rule is an error for the file (C80)'),
m('rc11',R,'AssignOp.op','  | .arrow => .assign\n  | .equal => .eq','  | .arrow => .eq\n  | .equal => .assign','the operators swapped','assignment reports the operator that is not wanted (C80)'),
m('rc12',R,'checkExpressions','inp.ruleSet.any (fun r => r.name = n)','inp.ruleSet.all (fun r => r.name = n)','only when it is the only rule','each enabled rule runs (C80)'),
m('rc13',R,'saidDiag','(noteRange src n z) Fix.empty','(placeRange src z) Fix.empty','the range of the node','for_loop_dup_index reports the variable to the end of the sequence (C80)'),
m('rc14',R,'fixDiag','(fixRange src n ed) (textFix src ed (W.content src n ed))','(fixRange src n ed) Fix.empty','the fix is dropped','the fixes of the rules are handed on (C80)'),
m('rc15',R,'sayNames','cs! "for_loop_index", cs! "for_loop_dup_index", cs! "if_always_true"]','cs! "for_loop_index", cs! "if_always_true"]','for_loop_dup_index may report anything else','for_loop_dup_index reports nothing else (C80)'),
m('rc16',R,'partRange','trimmedRange src.pieces (k + i) (k + j)','trimmedRange src.pieces i (k + j)','the start does not count what is in front of the code','ranges are in the file (C80)'),
m('rc17','Output.lean','paint','esc :: (cs! "[" ++ code ++ cs! "m") ++ s','esc :: (cs! "[" ++ code) ++ s','the final byte is missing','colours are only colours (C81)'),
m('rc18','Rules.lean','Rule.minVersion','| .coalesce => some ⟨4, 4, 0⟩','| .coalesce => some ⟨4, 3, 0⟩','coalesce from R 4.3 on','coalesce needs R 4.4 (C82)'),
m('rc19','Rules.lean','Rule.categories','| .anyDuplicated => [.perf]','| .anyDuplicated => [.read]','the group of any_duplicated','--select-rules PERF selects any_duplicated (C82)'),
m('rc20','Rules.lean','Rule.fixStatus','| .allEqual => .unsafe_','| .allEqual => .safe','all_equal has safe fixes','--fix does not apply the fixes of all_equal (C82)'),
m('rc21','Output.lean','ruleTitle','if env.noColor then name else hyperlink name','if env.noColor then hyperlink name else name','links exactly with NO_COLOR','NO_COLOR: no escape sequences (C81)'),
m('rc22','Output.lean','conciseLine','paint env (cs! "31") (ruleTitle env d.name) ++ cs! " " ++ d.text','paint env (cs! "31") (ruleTitle env d.name) ++ (if env.colors then [] else cs! " ") ++ d.text','with colours a space is missing','colours are only colours (C81)'),
m('rc23','Run.lean','scopeDir','if n = cs! "tinytest" || n = cs! "tests" then','if n = cs! "tinytest" then','inst/tests is not recognised','the directory of the tests is named (C49)'),
m('rc24','Run.lean','unusedHelp','if inPackageR w.pkgFs p then [] else','if !inPackageR w.pkgFs p then [] else','the directory is named for files in R/','the directory of the tests is named (C49)'),
]

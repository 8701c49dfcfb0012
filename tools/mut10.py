M=[]
def m(id,definition,old,new,edit,claim='C55',file='RReports.lean'):
    M.append(dict(id=id,file=file,definition=definition,old=old,new=new,edit=edit,claim=claim))
m('rp1','downloadFile','(cs! "method") 2','(cs! "method") 3','wrong position of method')
m('rp2','downloadFile','(cs! "mode") 4','(cs! "mode") 5','wrong position of mode')
m('rp3','downloadFile','some (cs! "\\"curl\\""), some (cs! "\'curl\'")]','some (cs! "\\"curl\\"")]','single quotes forgotten')
m('rp4','downloadFile','if s = cs! "\\"w\\"" ∨ s = cs! "\'w\'" then some .downloadW','if s = cs! "\\"w\\"" ∨ s = cs! "\'w\'" then some .downloadA','messages swapped')
m('rp5','emptyBraces','| .braces _ .snil _ => true','| .braces _ _ _ => true','braces with code count as empty')
m('rp6','emptyAssignment','guard (if o = .rassign then emptyBraces l else emptyBraces r)','guard (emptyBraces r)','-> read the wrong way')
m('rp7','emptyAssignment','o = .eq ∨ o = .assign ∨ o = .rassign','o = .assign ∨ o = .rassign','= forgotten')
m('rp8','bitwiseException',' || isAtom .str e','','strings not excepted')
m('rp9','vectorLogic','(!(bitwiseException l || bitwiseException r))','(!bitwiseException l)','right operand not looked at')
m('rp10','vectorLogic','guard (isIfCondition z.fs || isWhileCondition z.fs)','guard (isIfCondition z.fs)','while forgotten')
m('rp11','vectorLogic','some (.vectorLogic o (isIfCondition z.fs))','some (.vectorLogic o (isWhileCondition z.fs))','message for the wrong statement')
m('rp12','isIfCondition','| .ifC .. :: _ | .ieC .. :: _ => true','| .ifC .. :: _ => true','if with else forgotten')
m('rp13','ancestorIs','  | .braces .. :: _ => false\n','','search does not stop at braces')
m('rp14','isIfBody','| .ifT .. :: _ | .ieT .. :: _ | .ieE .. :: _ => true','| .ifT .. :: _ | .ieT .. :: _ => true','else body not seen as a body')
m('rp15','nearestCall','| .callA f _ .par _ :: _, _ => some (fnName f)','| .callA f _ _ _ :: _, _ => some (fnName f)','brackets count as calls')
m('rp16','nearestCall','  | .callF _ .par _ _ :: _, e => some (fnName e)\n','','function position not seen')
m('rp17','implicitAssignment','guard (!(inArg && (match','guard (!((match','functions to skip also outside of arguments')
m('rp18','implicitAssignment','o = .assign ∨ o = .superAssign ∨ o = .rassign ∨ o = .superRassign','o = .assign ∨ o = .superAssign ∨ o = .rassign','->> forgotten')
m('rp19','implicitAssignment','if inIf then some .implicitIf\n  else if inWhile then some .implicitWhile','if inWhile then some .implicitWhile\n  else if inIf then some .implicitIf','order of the messages')
m('rp20','implicitAssignment','!isForBody z.fs && ancestorIs Frame.isFor z.fs','ancestorIs Frame.isFor z.fs','assignments in loop bodies reported')
m('rp21','internalFunction','(.ns _ true)','(.ns _ _)',':: reported')
m('rp22','containsIdArgs','s = v || containsId v e','containsId v e','names of arguments not looked at')
m('rp23','containsIdArgs','containsIdArgs v a || containsIdArgs v rest','containsIdArgs v a','only the first argument')
m('rp24','containsId','  | .call _ _ .par args _ => containsIdArgs v args\n  | _ => false\n\n/-- The arguments','  | .call _ _ _ args _ => containsIdArgs v args\n  | _ => false\n\n/-- The arguments','brackets looked into')
m('rp25','Frame.loopVar?','  | .forS _ _ _ v _ _ _ => some v\n','','loops in a sequence not seen')
m('rp26','forLoopDupIndex','z.fs.any (fun f','(z.fs.take 1).any (fun f','only the loop directly around')
m('rp27','dupSkip','| [⟨.none, .atom k s⟩] => decide (atomText k s ∈ skipped) || (cs! "cli_").isPrefixOf (atomText k s)','| [⟨.none, .atom k s⟩] => decide (atomText k s ∈ skipped)','cli_ not skipped')
m('rp28','bareName',"c ≠ '\\'' ∧ c ≠ '\"' ∧ c ≠ '`'","c ≠ '\\'' ∧ c ≠ '\"'",'backticks not removed')
m('rp29','getDuplicates','1 < vs.count v','2 < vs.count v','only names given three times')
m('rp30','getDuplicates','.eraseDups','','names listed several times')
m('rp31','parseI64','n ≤ 9223372036854775807','n ≤ 2147483647','32 bits','C56')
m('rp32','stripL',"if s.getLast? = some 'L' then s.dropLast else s","s",'L not removed','C56')
m('rp33','expSign',"  | '+' :: ds => (false, ds)\n",'','1e+5 not read','C56')
m('rp34','f64NonZero','if 0 ≤ e then decide (m ≠ 0) else decide (10 ^ (-e).toNat < m * 2 ^ 1075)','decide (m ≠ 0)','no rounding to zero')
m('rp35','numVal','e - (b.length : Int)','e','digits behind the point not counted')
m('rp36','orConst','else if l = some false then r\n  else none\n\n/-- if_always_true.rs 158','else r\n\n/-- if_always_true.rs 158','x || FALSE taken for FALSE')
m('rp37','andConst','else if l = some true then r\n  else none','else r','x && TRUE taken for TRUE')
m('rp38','condConst','(condConst e).map (·.map (!·))','condConst e','! ignored')
m('rp39','condConst','| .atom _ .inf _ => .ok (some true)','| .atom _ .na _ => .ok (some true)','NA instead of Inf')
m('rp40','condConst','if o = .or2 ∨ o = .or then do','if o = .or2 ∨ o = .and then do','& read as or')
m('rp42','lengthsFails','(argBy (items args) (cs! "x") 0)','(argBy (items args) (cs! "X") 0)','the bug fixed','C56')
m('rp43','lengthTestFails','let a ← (items args).head?','let a ← (items args).getLast?','last argument','C56')
m('rp44','sampleIntFails','some .panic else none\n\n/-! ## The whole','some .error else none\n\n/-! ## The whole','error for panic','C56')
m('rp45','runRules','| .error e => .error e\n    | .ok s => match','| .error _ => runRules o z ns\n    | .ok s => match','a failing rule is skipped','C56')
m('rp46','runLooks','    | .error e => .error e\n    | .ok ds => match runLooks','    | .error _ => .ok []\n    | .ok ds => match runLooks','a failure ends the walk silently','C56')
m('rp47','runLooks','.ok (ds ++ rest)','.ok ds','only the first expression')
m('rp48','sayRules','(cs! "for_loop_index", fun z => .ok (forLoopIndex z))','(cs! "for_loop_index", fun z => .ok (forLoopDupIndex z))','rules mixed up')
m('rp49','undesirableFunction','some (.undesirable (fnName f))','some (.undesirable [])','name not in the message')
m('rp50','dupCallee','  | .atom _ .return s => some [tk (.atom .return s)]\n','','return() fails','C56')
m('rp51','duplicatedArguments','| none => .error .error\n    | some name','| none => .ok none\n    | some name','no error for other callees','C56')
m('rp52','resolveOpts','dup.extend dupArgsDefaults','dup.extend implicitDefaults','wrong defaults')
m('rp53','ifAlwaysTrue','if b = some true then','if b ≠ some false then','unknown conditions reported')
m('rp54','parseExp',"c = 'e' ∨ c = 'E'","c = 'e'",'E not known','C56')
m('rp55','implicitDefaults','cs! "quote", ','','quote not skipped by default')

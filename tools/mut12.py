M=[]
def m(id,definition,old,new,edit,claim='C63',file='RRules.lean'):
    M.append(dict(id=id,file=file,definition=definition,old=old,new=new,edit=edit,claim=claim))
m('fd1','nested',"  let direct := do\n    let a ← (unnamedArgs (items args)).head?","  let direct := do\n    guard ((items args).length = 1 ∧ (namedArgs (items args)).isEmpty ∧ !innerComments (toks z.e))\n    let a ← (unnamedArgs (items args)).head?","code with comments not reported")
m('fd2','nested',"    guard (o = .pipe)\n    let caseA := do","    guard (o = .and2)\n    let caseA := do","pipes missed")
m('fd3','nested',"      guard (o2 = .pipe)\n      let (f2, args2) ← asCall r\n      guard (fnName f2 = inner)\n      guard ((unn","      guard (o2 = .and2)\n      let (f2, args2) ← asCall r\n      guard (fnName f2 = inner)\n      guard ((unn","x |> is.na() |> any() missed")
m('fd4','lengthTest',"  guard (isComparison o)\n","  guard (isComparison o ∧ o ≠ .ne)\n","!= forgotten")
m('fd5','isComparison',"|| o = .le ||","||","<= forgotten")
m('fd6','underBang',"  | .un _ .bang :: .un _ _ :: _ => false\n","  | .un _ _ :: .un _ _ :: _ => false\n","equivalent: other operators give false anyway")
m('fd7','outerNegation',"else if textIs (cs! \"all\") f then some (cs! \"any\") else none","else none","all(!x) missed")
m('fd8','redundantIfelse',"fnName f = cs! \"ifelse\" ∨ fnName f = cs! \"fifelse\" then","fnName f = cs! \"ifelse\" then","fifelse missed")
m('fd9','redundantIfelse',"  else if isAtom .false t && isAtom .true e then\n    some (fixAt z (tk (.op .bang) :: tk (.open .par) :: toks c ++ [tk (.close .par)]))\n","","ifelse(x, FALSE, TRUE) missed")
m('fd10','redundantIfelse',"  let e ← valueBy (items args) n3 2","  let e ← valueBy (items args) n3 3","wrong position")
m('fd11','allEqualTrue',"  | .ifC .. :: _ | .ieC .. :: _ | .whileC .. :: _ => some (fixAt z text)","  | .ifC .. :: _ | .ieC .. :: _ => some (fixAt z text)","while missed")
m('fd12','classAndString',"  content l r <|> content r l","  content l r","string on the left missed")
m('fd13','lengths',"[cs! \"sapply\", cs! \"vapply\", cs! \"map_dbl\", cs! \"map_int\"]","[cs! \"sapply\", cs! \"vapply\", cs! \"map_dbl\"]","map_int missed")
m('fd14','lengths',"(cs! \"FUN\") 1","(cs! \"f\") 1","FUN = length missed")
m('fd15','sampleInt',"guard (textIs (cs! \"1\") l || textIs (cs! \"1L\") l)\n  guard (o = .colon)","guard (textIs (cs! \"1\") l)\n  guard (o = .colon)","1L:n missed")
m('fd16','grepv',"  guard ((argBy (items args) (cs! \"value\") 4).isSome)","  guard ((argByName (items args) (cs! \"value\")).isSome)","value by position missed")
m('fd17','systemFile',"  guard (paths.length = 1)","  guard (paths.length = 1 ∧ (items args).length ≤ 2)","several named arguments missed")
m('fd18','list2df'," || textIs (cs! \"'cbind.data.frame'\") w","","single quotes missed")
m('fd19','matrixApply',"  guard (row || textIs (cs! \"2\") m || textIs (cs! \"2L\") m)","  guard (row || textIs (cs! \"2\") m)","2L missed")
m('fd20','matrixApply',"if naRm.isSome then 4 else 3","3","na.rm missed")
m('fd21','sizeFns',"cs! \"NROW\", cs! \"NCOL\"]","cs! \"NROW\"]","NCOL missed")
m('fd22','seq',"  guard (textIs (cs! \"1\") l || textIs (cs! \"1L\") l)\n  guard (fnName f ∈ sizeFns)","  guard (textIs (cs! \"1\") l)\n  guard (fnName f ∈ sizeFns)","1L:length(x) missed")
m('fd23','isFixedPattern',"'^', '$', '\\\\'])","'^', '$', '\\\\', '-'])","patterns with - missed")
m('fd24','fixedRegex',"[cs! \"regexpr\", cs! \"gregexpr\", cs! \"regexec\", cs! \"grepl\"] then some 4","[cs! \"regexpr\", cs! \"gregexpr\", cs! \"grepl\"] then some 4","regexec missed")
m('fd25','isExpectEqual'," || fnName f = cs! \"expect_identical\"","","expect_identical missed")
m('fd26','expectTrueFalse',"else if textIs (cs! \"FALSE\") exp then some (false, obj) else none","else none","expect_equal(x, FALSE) missed")
m('fd27','expectNot',"fnName f = cs! \"expect_true\" ∨ fnName f = cs! \"expect_false\")\n","fnName f = cs! \"expect_true\")\n","expect_false(!x) missed")
m('fd28','expectNull',"else if isAtom .null obj then some exp else none","else none","expect_equal(NULL, x) missed")
m('fd29','expectLength',"else if calls (cs! \"length\") exp then some (exp, obj) else none","else none","expect_equal(1, length(x)) missed")
m('fd30','typeNames',"   (cs! \"is.environment\", cs! \"\\\"environment\\\"\"), (cs! \"is.pairlist\", cs! \"\\\"pairlist\\\"\")]","   (cs! \"is.environment\", cs! \"\\\"environment\\\"\")]","is.pairlist missed")
m('fd31','ignoredClasses',"cs! \"array\", cs! \"function\"]","cs! \"array\", cs! \"function\", cs! \"data.frame\"]","class data.frame missed")
m('fd32','expectMatch',"  guard (rest.all (fun a => (argName a).isSome))","  guard rest.isEmpty","grepl with options missed")
m('fd33','anyIsNa2',"  guard (!isAtom .na r && isAtom .na l)","  guard (isAtom .na r && !isAtom .na l)","sides swapped")
m('fd34','equalsSpecial',"  guard (o = .eq2 ∨ o = .ne ∨ isIn)","  guard (o = .eq2 ∨ isIn)","x != NA missed")
m('fd35','equalsNa',"cs! \"NA_logical_\", cs! \"NA_complex_\"]","cs! \"NA_logical_\"]","NA_complex_ missed")
m('fd36','isNumeric',"((textIs (cs! \"is.integer\") fl && textIs (cs! \"is.numeric\") fr) || (textIs (cs! \"is.numeric\") fl && textIs (cs! \"is.integer\") fr))","(textIs (cs! \"is.integer\") fl && textIs (cs! \"is.numeric\") fr)","one order missed")
m('fd37','isNumeric',"  guard (toks al = toks ar)","  guard (toks l = toks r)","compares the whole calls, so nothing is found")
m('fd38','redundantEquals',"else if isAtom .false r then some (decide (o = .ne), l) else none","else none","x == FALSE missed")
m('fd39','inCondition',"  | .ifC .. :: _ | .ieC .. :: _ | .whileC .. :: _ => true","  | .ifC .. :: _ | .whileC .. :: _ => true","if with else missed")
m('fd40','isLiteralOne',"  | .atom _ .double s => s ∈ [cs! \"1\", cs! \"1.0\", cs! \"1.\"]","  | .atom _ .double s => s ∈ [cs! \"1.0\", cs! \"1.\"]","1 missed")
m('fd41','stringBoundary',"  guard (fnName f = cs! \"substr\" ∨ fnName f = cs! \"substring\")","  guard (fnName f = cs! \"substr\")","substring missed")
m('fd42','assignment',"  else if o = .rassign then some ⟨z, trimmed r ++ tk (.op want) :: trimmed l, false⟩\n","","-> missed")
m('fd43','negateComparison',"| .ge => some .lt ","","!(x >= y) missed")
m('fd44','sortRule',"  guard ((unnamedArgs as).length = 1)","  guard (as.length = 1)","options missed")
m('fd45','numericLeadingZero',"  | .atom _ .complex ('.' :: s) => some ⟨z, [tk (.atom .complex ('0' :: '.' :: s))], false⟩\n","","complex numbers missed")
m('fd46','tfAllowed',"  | .binR _ _ .tilde :: _ => false","  | .binR .. :: _ => false","T on the right of any operator missed")
m('fd47','repeatRule',"    if isAtom .true c then some","    if isAtom .true c && !innerComments (toks b) then some","body with comments missed")
m('fd48','coalesce',"      | .un _ .bang a => some (a, t, e)\n","","!is.null missed")
m('fd49','coalesce',"    guard (sameText x (singleStatement same))","    guard (sameText x same)","braces missed")
m('fd50','unnecessaryNesting',"  | .ifE _ _ c _ (.braces _ (.scons (.ifE _ _ c2 _ t2) _ .snil) _) =>","  | .ifE _ _ c _ (.braces .none (.scons (.ifE _ _ c2 _ t2) _ .snil) _) =>","brace on a new line missed")
m('fd51','sprintfReport',"  let a ← argBy (items args) (cs! \"fmt\") 0\n","  let a ← (unnamedArgs (items args)).head?\n","fmt = missed")
m('fd52','visit',"  | .repE g b => .node ⟨fs, .repE g b⟩ :: visit (.repE g :: fs) b","  | .repE g b => [.node ⟨fs, .repE g b⟩]","body of repeat not looked at",file='RVisit.lean')
m('fd53','fnName',"  | .atom _ (.ns ..) s => s\n","","base::any(…) missed")
m('fd54','fixRules',"(cs! \"coalesce\", coalesce), ","","rule not called",file='RVisit.lean')
m('fd55','valueBy',"(argBy as name pos).bind argValue","(argBy as name pos).bind (fun a => if (argName a).isSome then none else argValue a)","named arguments missed")

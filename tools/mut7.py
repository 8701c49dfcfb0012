M=[]
def m(id,definition,old,new,edit,claim,file='RRules.lean'):
    M.append(dict(id=id,file=file,definition=definition,old=old,new=new,edit=edit,claim=claim))
m('rr1','nested','    guard (fnName f2 = inner)\n    some (toks args2, z)','    guard (fnName f2 = inner)\n    some (toks args, z)','content of the outer call','C52')
m('rr2','nested','guard (o = .pipe)\n    let caseA','guard (o ≠ .colon)\n    let caseA','any operator taken for a pipe','C52')
m('rr3','nested','guard (o2 = .pipe)\n','','any operator taken for a pipe in the chain','C52')
m('rr4','nested','guard ((unnamedArgs (items args2)).isEmpty)\n      some (trimmed c, p)','some (trimmed c, p)','arguments of the inner call dropped','C52 (condition onlyNested covers it)')
m('rr5','anyIsNa','(callText (cs! "anyNA") c)','(callText (cs! "anyNa") c)','wrong function name','C52')
m('rr6','anyDuplicated','[tk (.op .gt), tk (.atom .double (cs! "0"))]','[tk (.op .ge), tk (.atom .double (cs! "0"))]','>= 0','C52')
m('rr7','lengthTest','(trimmed l) ++ tk (.op o) :: trimmed r))','(trimmed r) ++ tk (.op o) :: trimmed l))','swapped sides','C52')
m('rr8','lengthTest','  guard (isComparison o)\n  some (fixAt z (callText (cs! "length")','  some (fixAt z (callText (cs! "length")','any operator','C52')
m('rr9','outerNegation','then some (cs! "all") else if textIs (cs! "all") f then some (cs! "any")','then some (cs! "all") else if textIs (cs! "all") f then some (cs! "all")','all not swapped','C52')
m('rr10','outerNegation','guard ((items args)[1]?.isNone)\n  let v ← argValue a\n  let (_, e)','let v ← argValue a\n  let (_, e)','other arguments dropped','C52')
m('rr11','redundantIfelse','let t ← valueBy (items args) n2 1\n  let e ← valueBy (items args) n3 2','let t ← valueBy (items args) n2 2\n  let e ← valueBy (items args) n3 1','positions swapped','C52')
m('rr12','redundantIfelse','tk (.op .bang) :: tk (.open .par) :: toks c ++ [tk (.close .par)]','tk (.op .bang) :: toks c','parentheses forgotten','C51/C52')
m('rr13','allEqualFalse','tk (.op .bang) :: callText (cs! "isTRUE") (callText','callText (cs! "isTRUE") (callText','negation lost','C52')
m('rr14','allEqualTrue','tk (.op .bang) :: text, containsComments z','text, containsComments z','negation lost','C52')
m('rr15','classAndString','some (trimmed a, trimmed s)','some (trimmed s, trimmed a)','arguments swapped','C52')
m('rr16','classAndString','    guard (isAtom .str s)\n','','any other side','C52')
m('rr17','lengths','argBy (items args) (cs! "x") 0','argBy (items args) (cs! "x") 1','wrong position','C52')
m('rr18','lengths','guard (textIs (cs! "length") v)\n','','any function','C52')
m('rr19','sampleInt','  guard (o = .colon)\n  let content','  let content','any operator','C52')
m('rr20','sampleInt','some as => trimmed r ++','some as => trimmed l ++','lower bound taken','C52')
m('rr21','sampleInt','guard (textIs (cs! "1") l || textIs (cs! "1L") l)\n  guard (o = .colon)','guard (o = .colon)','any lower bound','C52')
m('rr22','grepv','dropArg (items args) (cs! "value") 4','dropArg (items args) (cs! "value") 3','wrong position dropped','C52')
m('rr23','dropArg','some (as.filter (fun a => argName a ≠ some name))','some (as.filter (fun a => argName a = some name))','only the dropped one kept','C52')
m('rr24','dropArg','some (as.eraseIdx pos)','some (as.eraseIdx (pos + 1))','off by one','C52')
m('rr25','argBy','| none => (unnamedArgs as)[pos]?','| none => as[pos]?','position among all arguments','C52')
m('rr26','systemFile','guard (paths.length = 1)\n','','several file.path','C52 (condition oneUnnamed covers it)')
m('rr27','systemFile','joinComma ((namedArgs (items args)).map trimmed)','joinComma ((unnamedArgs (items args)).map trimmed)','unnamed kept instead','C52')
m('rr28','list2df','let what ← argBy (items args) (cs! "what") 0\n  let x ← argBy (items args) (cs! "args") 1','let what ← argBy (items args) (cs! "what") 1\n  let x ← argBy (items args) (cs! "args") 0','swapped','C52')
m('rr29','matrixApply','| true, true => cs! "rowMeans" | true, false => cs! "colMeans"','| true, true => cs! "colMeans" | true, false => cs! "rowMeans"','rows and columns swapped','C52')
m('rr30','matrixApply','let fn ← valueBy as (cs! "FUN") 2\n','let fn ← valueBy as (cs! "FUN") 1\n','wrong position','C52')
m('rr31','matrixApply','guard (as.length ≤ if naRm.isSome then 4 else 3)\n','','extra arguments dropped','C52')
m('rr32','seqText','callText (cs! "seq_len") (callText name content)','callText (cs! "seq_len") content','nrow lost','C52')
m('rr33','seq2','guard ((items args).length = 1)\n  let a ← (unnamedArgs','let a ← (unnamedArgs','other arguments dropped','C52')
m('rr34','isFixedPattern',"'^', '$', '\\\\']","'^', '$']",'backslash allowed','C52')
m('rr35','fixedRegex','let p ← valueBy as (cs! "pattern") 0','let p ← valueBy as (cs! "pattern") 1','wrong argument','C52')
m('rr36','expectNamed','let x ← valueBy (items nargs) (cs! "x") 0\n  some (fixAt z (prefixedText f (cs! "expect_named") (trimmed x ++ tk .comma :: trimmed exp)))','let x ← valueBy (items nargs) (cs! "x") 0\n  some (fixAt z (prefixedText f (cs! "expect_named") (trimmed exp ++ tk .comma :: trimmed x)))','swapped','C52')
m('rr37','expectTrueFalse','(if b then cs! "expect_true" else cs! "expect_false") (trimmed other)','(if b then cs! "expect_false" else cs! "expect_true") (trimmed other)','swapped','C52')
m('rr38','expectNot','  guard (o = .bang)\n  guard ((asUn a)','  guard ((asUn a)','any unary operator','C52')
m('rr39','expectNull','if isAtom .null exp then some obj else if isAtom .null obj then some exp','if isAtom .null exp then some exp else if isAtom .null obj then some exp','wrong side','C52')
m('rr40','expectLength','guard ((items args).length ≤ 2)\n  let (c, other) ← (if calls (cs! "length") obj','let (c, other) ← (if calls (cs! "length") obj','extra arguments dropped','C52')
m('rr41','typeNames','(cs! "is.raw", cs! "\\"raw\\"")','(cs! "is.raw", cs! "\\"integer\\"")','wrong type','C52')
m('rr42','expectMatch','trimmed x :: trimmed p :: rest','trimmed p :: trimmed x :: rest','swapped','C52')
m('rr43','expectMatch','guard ((items args).length ≤ 1)\n  let rest','let rest','extra arguments dropped','C52')
m('rr44','expectMatch','guard (rest.all (fun a => (argName a).isSome))\n','guard (rest.length < 100)\n','positional arguments kept','C52')
m('rr45','equalsSpecial','guard (bothWays || !(isIn && special l))\n','guard (bothWays || !bothWays)\n','NA %in% x','C52')
m('rr46','equalsSpecial','(if special l then r else l)','(if special l then l else r)','wrong side','C52')
m('rr47','equalsSpecial','if o = .ne then tk (.op .bang) :: call else call))\n\n/-- `x == NA`','call))\n\n/-- `x == NA`','negation lost','C52')
m('rr48','isNumeric','guard (toks al = toks ar)\n','guard (toks ar = toks ar)\n','different arguments','C52')
m('rr49','isNumeric','guard (o = .or2)\n  let (fl','guard (o = .and2)\n  let (fl','&& instead of ||','C52')
m('rr50','redundantEquals','isAtom .false l then some (decide (o = .ne), r)','isAtom .false l then some (decide (o = .eq2), r)','negation lost','C52')
m('rr51','redundantEquals','guard (o = .eq2 ∨ o = .ne)\n  let (keep','let (keep','any operator','C52')
m('rr52','classEquals','if o = .ne then tk (.op .bang) :: call else call))\n\n/-- `1:length','call))\n\n/-- `1:length','negation lost','C52')
m('rr53','stringBoundary','callText name (trimmed x ++ tk .comma :: trimmed s)','callText name (trimmed s ++ tk .comma :: trimmed x)','swapped','C52')
m('rr54','assignment',"some ⟨z, trimmed r ++ tk (.op want) :: trimmed l, false⟩","some ⟨z, trimmed l ++ tk (.op want) :: trimmed r, false⟩",'-> not turned round','C52')
m('rr55','assignment','else if o = .rassign then','else if o = .superRassign then','->> becomes <-','C52')
m('rr56','negateComparison','.gt => some .le | .ge => some .lt','.gt => some .lt | .ge => some .le','wrong opposite','C52')
m('rr57','comparisonNegation','  guard (o = .bang)\n  let b ← asParen a','  let b ← asParen a','any unary operator','C52')
m('rr58','sortRule','guard (sameText u x)\n','','order of another vector','C52')
m('rr59','sortRule','[cs! "na.last", cs! "decreasing", cs! "method"].filterMap','[cs! "na.last", cs! "method"].filterMap','decreasing lost','C52')
m('rr60','numericLeadingZero',"(.atom .double ('0' :: '.' :: s))","(.atom .double ('0' :: s))",'point lost','C52')
m('rr61','trueFalseSymbol','then some (AKind.false, cs! "FALSE")','then some (AKind.true, cs! "TRUE")','F becomes TRUE','C52')
m('rr62','tfAllowed','| .callF _ .par _ _ :: _ => false\n','| .callF _ .par _ _ :: _ => true\n','T(x) becomes TRUE(x)','C51/C52')
m('rr63','inBraces','| _ => tk .lbrace :: trimmed b ++ [tk .rbrace]','| _ => trimmed b','no braces','(equivalent: both are allowed)')
m('rr64','repeatRule','if isAtom .true c then','if isAtom .false c then','while (FALSE)','C52')
m('rr65','coalesce','guard (sameText x (singleStatement same))\n','guard (sameText x x || sameText x same)\n','another value returned','C52')
m('rr66','coalesce','| .un _ .bang a => some (a, t, e)','| .un _ .bang a => some (a, e, t)','branches swapped','C52')
m('rr67','coalesce','guard (xs.length = 1)\n','','several arguments','C52')
m('rr68','condText','if isAtom .id c then trimmed c else tk (.open .par) :: toks c ++ [tk (.close .par)]','trimmed c','no parentheses','C51')
m('rr69','unnecessaryNesting','tk (.op .and2)','tk (.op .or2)','|| instead of &&','C52')
m('rr70','unnecessaryNesting','.scons (.ifE _ _ c2 _ t2) _ .snil','.scons (.ifE _ _ c2 _ t2) _ _','more statements lost','C52')
m('rr71','prefixed','tk (.atom (.ns pkg false) name)','tk (.atom .id name)','package lost','C52')
m('rr72','fnName','| .atom _ (.ns ..) s => s','| .atom _ (.ns pkg _) s => pkg','package taken for function','C52')
m('rr73','callText','','','placeholder','')
m('rr74','anyIsNa2','guard (o = .special (cs! "in"))\n  guard (!isAtom .na r','guard (!isAtom .na r','any operator','C52')
m('rr75','seq','guard (textIs (cs! "1") l || textIs (cs! "1L") l)\n  guard (fnName f ∈ sizeFns)','guard (fnName f ∈ sizeFns)','0:length(x)','C52')
m('rr76','classIdentical','let b ← (items args)[1]?','let b ← (items args)[0]?','first argument twice','(fires never)')
m('rr77','expectS3Class','let x ← valueBy (items iargs) (cs! "x") 0\n  some (fixAt z (prefixedText f (cs! "expect_s3_class") (trimmed x','let x ← valueBy (items args) (cs! "object") 0\n  some (fixAt z (prefixedText f (cs! "expect_s3_class") (trimmed x','the call itself kept','C52')
m('rr78','expectType','guard ((items args).length ≤ 1)\n    let obj','let obj','extra arguments dropped','C52')
M=[x for x in M if x['id']!='rr73']

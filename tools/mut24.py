# The rule and the law it is compared with (C52) changed together: what is left to find the bug is what the code computes (C79).
L='Spec/RLaws.lean'
M=[]
def m(id,definition,old,new,edit,also=[],claim='C79',file='RRules.lean'):
    M.append(dict(id=id,file=file,definition=definition,old=old,new=new,edit=edit,claim=claim,also=also))
m('va1','negateComparison','| .gt => some .le |','| .gt => some .lt |','the opposite of > is < (in the documentation as well)',[(L,'| gt : Opposite .gt .le','| gt : Opposite .gt .lt')])
m('va2','outerNegation','f then some (cs! "all") else','f then some (cs! "any") else','any(!x) becomes !any(x) (documented so)',[(L,'(callOf f [.un .none .bang x]) (.un .none .bang (fn (cs! "all") [x]))','(callOf f [.un .none .bang x]) (.un .none .bang (fn (cs! "any") [x]))')])
m('va3','anyDuplicated','[tk (.op .gt), tk','[tk (.op .ge), tk','anyDuplicated(x) >= 0 (documented so)',[(L,'as) .none .gt (.atom .none .double (cs! "0"))','as) .none .ge (.atom .none .double (cs! "0"))')])
m('va4','whichGrepl','(callText (cs! "grep") c)','(callText (cs! "grepl") c)','which(grepl(p, x)) becomes grepl(p, x) (documented so)',[(L,'Law (cs! "which_grepl") (callOf f [callOf g as]) (fn (cs! "grep") as)','Law (cs! "which_grepl") (callOf f [callOf g as]) (fn (cs! "grepl") as)')])
m('va5','unnecessaryNesting','condText c ++ tk (.op .and2) ::','condText c ++ tk (.op .or2) ::','the conditions are joined with || (documented so)',[(L,'(.ifE .none .none (.bin a .none .and2 b) .none t)','(.ifE .none .none (.bin a .none .or2 b) .none t)')])
m('va6','lengthLevels','(callText (cs! "nlevels") c)','(callText (cs! "levels") c)','length(levels(x)) becomes levels(x) (documented so)',[(L,'(fn (cs! "nlevels") as)','(fn (cs! "levels") as)')])
m('va7','isNumeric','(callText (cs! "is.numeric") (toks al))','(callText (cs! "is.integer") (toks al))','is.numeric(x) || is.integer(x) becomes is.integer(x) (documented so)',[(L,'(callOf g as)) (fn (cs! "is.numeric") as)','(callOf g as)) (fn (cs! "is.integer") as)')])
m('va8','redundantEquals','(if keep then trimmed other else tk (.op .bang) :: trimmed other)','(if keep then trimmed other else trimmed other)','x == FALSE becomes x (documented so)',[(L,'(notIf (b ≠ (o = .eq2 : Bool)) x)','x')])
m('va9','lengths','(callText (cs! "lengths") (trimmed x))','(callText (cs! "length") (trimmed x))','sapply(x, length) becomes length(x) (documented so)',[(L,"matchArg [cs! \"X\", cs! \"FUN\"] as (cs! \"X\") = some x → Law (cs! \"lengths\") (callOf f as) (fn (cs! \"lengths\") [x])","matchArg [cs! \"X\", cs! \"FUN\"] as (cs! \"X\") = some x → Law (cs! \"lengths\") (callOf f as) (fn (cs! \"length\") [x])"),(L,"(∀ a ∈ as, isArg a = true) → Law (cs! \"lengths\") (callOf f as) (fn (cs! \"lengths\") [x])","(∀ a ∈ as, isArg a = true) → Law (cs! \"lengths\") (callOf f as) (fn (cs! \"length\") [x])"),(L,"valueOf x = some x → Law (cs! \"lengths\") (callOf f [x, len]) (fn (cs! \"lengths\") [x])","valueOf x = some x → Law (cs! \"lengths\") (callOf f [x, len]) (fn (cs! \"length\") [x])")])
m('va10','numericLeadingZero',"[tk (.atom .double ('0' :: '.' :: s))]","[tk (.atom .double ('.' :: '0' :: s))]",'.5 becomes .05 (documented so)',[(L,"(.atom .none k ('0' :: '.' :: s))","(.atom .none k ('.' :: '0' :: s))"),('RRules.lean',"[tk (.atom .complex ('0' :: '.' :: s))]","[tk (.atom .complex ('.' :: '0' :: s))]")])
m('va11','trueFalseSymbol','some (AKind.false, cs! "FALSE") else none','some (AKind.true, cs! "TRUE") else none','F becomes TRUE (documented so)',[(L,'(sym (cs! "F")) (.atom .none .false (cs! "FALSE"))','(sym (cs! "F")) (.atom .none .true (cs! "TRUE"))')])
m('va12','stringBoundary','then some (cs! "startsWith") else if','then some (cs! "endsWith") else if','substr(x, 1, 3) == "abc" becomes endsWith (documented so)',[(L,'(fn (cs! "startsWith") [x, s])','(fn (cs! "endsWith") [x, s])')])
m('va13','sortRule','(callText (cs! "sort") (joinComma','(callText (cs! "order") (joinComma','x[order(x)] becomes order(x) (documented so)',[(L,'(fn (cs! "sort") (x :: opts))','(fn (cs! "order") (x :: opts))')])
m('va14','seqText','callText (cs! "seq_along") content','callText (cs! "seq_len") content','1:length(x) becomes seq_len(x) (documented so)',[(L,'Law (cs! "seq") (.bin one .none .colon (callOf g as)) (fn (cs! "seq_along") as)','Law (cs! "seq") (.bin one .none .colon (callOf g as)) (fn (cs! "seq_len") as)'),(L,'Law (cs! "seq2") (callOf f [callOf g as]) (fn (cs! "seq_along") as)','Law (cs! "seq2") (callOf f [callOf g as]) (fn (cs! "seq_len") as)')])
m('va15','sampleInt','callText (cs! "sample.int") content','callText (cs! "sample") content','sample(1:n, m) becomes sample(n, m) (documented so)',[(L,'(fn (cs! "sample.int") (n :: as))','(fn (cs! "sample") (n :: as))')])
m('va16','anyIsNa','(callText (cs! "anyNA") c)','(callText (cs! "is.na") c)','any(is.na(x)) becomes is.na(x) (documented so)',[(L,'(callOf f [callOf g as]) (fn (cs! "anyNA") as)','(callOf f [callOf g as]) (fn (cs! "is.na") as)')])
m('va17','coalesce','else trimmed x ++ tk (.op (.special (cs! "||"))) :: trimmed (singleStatement other)','else trimmed (singleStatement other) ++ tk (.op (.special (cs! "||"))) :: trimmed x','the sides of %||% are swapped (documented so)',[(L,'(callOf f [a]) .none t .none e) (special x (cs! "||") y)','(callOf f [a]) .none t .none e) (special y (cs! "||") x)'),(L,'(callOf f [a])) .none t .none e) (special x (cs! "||") y)','(callOf f [a])) .none t .none e) (special y (cs! "||") x)')])
m('va18','redundantIfelse','if isAtom .true t && isAtom .false e then some','if isAtom .false t && isAtom .true e then some','ifelse(c, FALSE, TRUE) becomes c (documented so)',[(L,'Const (if b then .false else .true) t → Const (if b then .true else .false) e','Const (if b then .true else .false) t → Const (if b then .false else .true) e'),('RRules.lean','else if isAtom .false t && isAtom .true e then','else if isAtom .true t && isAtom .false e then')])
m('va19','notIf','def notIf (b : Bool) (e : Node) : Node := if b then .un .none .bang e else e','def notIf (_ : Bool) (e : Node) : Node := e','the documentation forgets the ! everywhere',[],'C79',L)
m('va20','anyIsNa2','','','',[])
M.pop()

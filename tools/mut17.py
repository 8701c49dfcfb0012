M=[]
def m(id,definition,old,new,edit,claim='C67',file='RRules.lean'):
    M.append(dict(id=id,file=file,definition=definition,old=old,new=new,edit=edit,claim=claim))
m('eo1','assignment','else if o = .rassign then some ⟨z, trimmed r ++ tk (.op want) :: trimmed l, false⟩','else if o = .rassign then some ⟨z, trimmed l ++ tk (.op .rassign) :: trimmed r, false⟩',"-> is written back as ->: never ends")
m('eo2','assignment','let other : Op := if want = .assign then .eq else .assign','let other : Op := .eq',"with `=` preferred, `=` is replaced by `=`: never ends")
m('eo3','outerNegation','  guard (!underBang z.fs)\n  let (f, args) ← asCall z.e\n  let new','  let (f, args) ← asCall z.e\n  let new',"not checked that there is no ! in front (still ends, but `!any(!x)` becomes `!!all(x)`)","none (control)")
m('eo4','comparisonNegation','some (fixAt z (trimmed l ++ tk (.op o3) :: trimmed r))','some (fixAt z (tk (.op .bang) :: tk (.open .par) :: trimmed l ++ tk (.op o3) :: trimmed r ++ [tk (.close .par)]))',"the negation is kept: flips for ever")
m('eo5','repeatRule','some (fixAt z (tk .repeat :: inBraces b))','some (fixAt z (tk .while :: tk (.open .par) :: tk (.atom .true (cs! "TRUE")) :: tk (.close .par) :: inBraces b))',"while (TRUE) again: never ends")
m('eo6','coalesce','trimmed x ++ tk (.op (.special (cs! "||"))) :: trimmed (singleStatement other)','trimmed z.e',"the same if again: never ends")
m('eo7','unnecessaryNesting','tk (.close .par) :: trimmed t2)','tk (.close .par) :: tk .lbrace :: tk .if :: tk (.open .par) :: toks c2 ++ tk (.close .par) :: trimmed t2 ++ [tk .rbrace])',"the inner if is kept: never ends")
m('eo8','redundantIfelse','''    some (fixAt z (tk (.op .bang) :: tk (.open .par) :: toks c ++ [tk (.close .par)]))
  else none''','''    some (fixAt z (callText (cs! "ifelse") (toks c ++ [tk .comma, tk (.atom .false (cs! "FALSE")), tk .comma, tk (.atom .true (cs! "TRUE"))])))
  else none''',"ifelse again: never ends")
m('eo9','allEqualFalse','some (fixAt t (tk (.op .bang) :: callText (cs! "isTRUE") (callText (cs! "all.equal") c)))','some (fixAt t (tk (.op .bang) :: tk (.op .bang) :: callText (cs! "isFALSE") (callText (cs! "all.equal") c)))',"isFALSE kept behind two negations: never ends")
m('eo10','outerNegation','some (fixAt z (tk (.op .bang) :: callText new (trimmed e)))','some (fixAt z (tk (.op .bang) :: callText new (tk (.op .bang) :: trimmed e)))',"the inner negation is kept: any(!x), !all(!x), !!any(!x)")

M=[]
def m(id,definition,old,new,edit,claim='C67',file='RRules.lean'):
    M.append(dict(id=id,file=file,definition=definition,old=old,new=new,edit=edit,claim=claim))
m('en1','trueFalseSymbol','some (AKind.true, cs! "TRUE")','some (AKind.id, cs! "T")',"T replaced by itself: never ends")
m('en2','numericLeadingZero',"[tk (.atom .complex ('0' :: '.' :: s))]","[tk (.atom .complex ('.' :: '0' :: s))]","the zero behind the point: never ends")
m('en3','sampleInt','callText (cs! "sample.int") content','callText (cs! "sample") (tk (.atom .int (cs! "1L")) :: tk (.op .colon) :: content)',"still a sample(1:n) call: never ends")
m('en4','lengthLevels','callText (cs! "nlevels") c','callText (cs! "length") (callText (cs! "levels") c)',"the same call again: never ends")
m('en5','allEqualTrue','''    some ⟨⟨fs, .un g o z.e⟩, tk (.op .bang) :: text, containsComments z⟩
  | _ => none''','''    some ⟨⟨fs, .un g o z.e⟩, tk (.op .bang) :: text, containsComments z⟩
  | _ => some (fixAt z text)''',"all.equal wrapped everywhere: isTRUE(isTRUE(... never ends")
m('en6','redundantEquals','(if keep then trimmed other else tk (.op .bang) :: trimmed other)','(if keep then trimmed z.e else tk (.op .bang) :: trimmed other)',"the comparison kept: never ends")
m('en7','equalsSpecial','callText name (trimmed (if special l then r else l))','callText name (trimmed z.e)',"is.na(x == NA): never ends")
m('en8','sortRule','callText (cs! "sort") (joinComma (trimmed x :: extra))','callText (cs! "sort") (joinComma (trimmed z.e :: extra))',"sort(x[order(x)]): never ends")
m('en9','fixStep','if start < st.lastPos then some { st with skipped := true }','if start ≤ st.lastPos then some { st with skipped := true }',"fixes that touch are skipped, also the first one at the beginning of the file: an endless loop","C67_fix_ends, C19",'Fix.lean')
m('en10','lintFixLoop','lintFixLoop L pkg cfg path io fuel (n + 1) skipped\' (some text)','lintFixLoop L pkg cfg path io fuel (n + 1) true (some text)',"always another pass","C67_fix_ends, C22",'LintFix.lean')

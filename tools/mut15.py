M=[]
def m(id,definition,old,new,edit,claim='C66',file='RText.lean'):
    M.append(dict(id=id,file=file,definition=definition,old=old,new=new,edit=edit,claim=claim))
m('tx1','trimmedRange'," + blen (((ps.drop i).head?.map (·.gap)).getD [])","","range with the blanks in front (text_range instead of text_trimmed_range)")
m('tx2','trimmedRange',"blen (piecesText (ps.take j)))","blen (piecesText (ps.take j)) + 1)","range one byte too long")
m('tx3','trimmedRange',"blen (piecesText (ps.take j)))","(piecesText (ps.take j)).length)","end in characters, not bytes")
m('tx4','textFix',"(i + (toks ed.z.e).length)","(i + (toks ed.z.e).length - 1)","last token left")
m('tx5','textFix',"⟨content, r.1, r.2, ed.skip⟩","⟨content, r.2, r.1, ed.skip⟩","start and end swapped")
m('tx6','textFix',"⟨content, r.1, r.2, ed.skip⟩","⟨' ' :: content, r.1, r.2, ed.skip⟩","a blank in front of the content","C66 (the range is still right: only C66_text's tokens with the gaps)")
m('tx7','Op.text','.eq2 => cs! "=="','.eq2 => cs! "="',"operator written wrongly")
m('tx8','Op.text','.le => cs! "<="','.le => cs! "=<"',"operator written wrongly")
m('tx9','Op.text',"'%' :: s ++ ['%']","'%' :: s","special operator not closed")
m('tx10','TK.text','(if internal then cs! ":::" else cs! "::")','cs! "::"',"::: written as ::")
m('tx11','gapOf','.line (a.contains \'#\') ((b :: rest).any (·.contains \'#\'))','.none',"line breaks lost")
m('tx12','piecesText','p.gap ++ p.k.text ++ piecesText ps','p.k.text ++ p.gap ++ piecesText ps',"blanks behind the token")
m('tx13','textFix',"let i := (beforeToks ed.z.fs).length","let i := 0","start of the file")
m('tx14','textFix',"let i := (beforeToks ed.z.fs).length","let i := (beforeToks ed.z.fs).length + 1","first token left")
m('tx15','fixedRegex','guard (!has (cs! "fixed") fixedPos (cs! "TRUE"))','guard ((valueBy as (cs! "fixed") fixedPos).isNone)',"repaired: any fixed argument stops the rule","C22 (F41: then the file is left alone)",'RRules.lean')
m('tx16','anyIsNa','(cs! "anyNA")','(cs! "any NA")',"content with a blank inside","C66",'RRules.lean')
m('tx17','fixStep','if start < st.lastPos then some { st with skipped := true }','if start < st.lastPos then some st',"skipping not remembered","C22, C66_apply_fixes",'Fix.lean')
m('tx18','lintFixLoop','if !skipped then (d, some (.ok checks))','if skipped then (d, some (.ok checks))',"flag inverted","C21, C22, C66_fix_file",'LintFix.lean')

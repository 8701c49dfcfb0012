M=[]
def m(id,definition,old,new,edit,claim='C64',file='RRules.lean'):
    M.append(dict(id=id,file=file,definition=definition,old=old,new=new,edit=edit,claim=claim))
m('co1','innerComments',"  | _ :: ts => ts.any (·.gap.comment)","  | _ :: ts => ts.any (·.gap.own)","comments behind code inside not seen")
m('co2','innerComments',"  | _ :: ts => ts.any (·.gap.comment)","  | _ :: ts => ts.dropLast.any (·.gap.comment)","comment in front of the last token not seen")
m('co3','containsComments',"(innerComments (toks z.e) || lead || trail) && !trail && !lead","(innerComments (toks z.e) || lead || trail) && !trail && lead","negation dropped")
m('co4','containsComments',"  let lead := match toks z.e with | [] => false | t :: _ => t.gap.own","  let lead := match toks z.e with | [] => false | t :: _ => t.gap.comment","comment behind the code before counts as above")
m('co5','containsComments',"  let trail := match afterToks z.fs with | [] => false | t :: _ => t.gap.trail","  let trail := match afterToks z.fs with | [] => false | t :: _ => t.gap.comment","own-line comment after the code counts as behind")
m('co6','fixAt',"⟨z, content, containsComments z⟩","⟨z, content, false⟩","comments never looked for")
m('co7','coalesce',"containsComments z || skip⟩","skip⟩","coalesce does not look for comments")
m('co8','coalesce',"containsComments z || skip⟩","containsComments z && skip⟩","and for or")
m('co9','nested',"      some (trimmed c, p)","      some (trimmed c, ⟨z.fs, p.e⟩)","wrong place replaced")
m('co10','repeatRule',"some (fixAt z (tk .repeat :: inBraces b))","some ⟨z, tk .repeat :: inBraces b, false⟩","repeat does not look for comments")
m('co11','unnecessaryNesting',"    some (fixAt z (tk .if","    some ((fun x => (⟨z, x, innerComments (toks c) || innerComments (toks t2)⟩ : Edit)) (tk .if","comments between the pieces not looked for")
m('co12','allEqualTrue',"containsComments z⟩\n  | _ => none","false⟩\n  | _ => none","no look at comments behind !; the exception of the claim covers it")
m('co13','redundantIfelse',"some (fixAt z (toks c))\n","some ⟨z, toks c, innerComments (toks c)⟩\n","only comments in the condition are looked for")
m('co14','sortRule',"  some (fixAt z (callText (cs! \"sort\") (joinComma (trimmed x :: extra))))","  some ⟨z, callText (cs! \"sort\") (joinComma (trimmed x :: extra)), innerComments (toks x)⟩","only comments in the vector are looked for")
m('co15','sprintfRule',"  | .useless s => some (fixAt z [tk (.atom .str s)])","  | .useless s => some ⟨z, [tk (.atom .str s)], false⟩","sprintf does not look for comments")
m('co16','setHead',"  | t :: ts => { t with gap := g } :: ts","  | t :: ts => { t with gap := if t.gap.nl then .line t.gap.trail true else g } :: ts","comments in front are copied")
m('co17','tk',"def tk (k : TK) : Tok := ⟨.none, k⟩","def tk (k : TK) : Tok := ⟨.line false true, k⟩","new text with comments")
m('co18','numericLeadingZero',"| .atom _ .double ('.' :: s) => some ⟨z, [tk (.atom .double ('0' :: '.' :: s))], false⟩","| .atom g .double ('.' :: s) => some ⟨z, [⟨g, .atom .double ('0' :: '.' :: s)⟩], false⟩","comment in front is doubled")
m('co19','trueFalseSymbol',"  some ⟨z, [tk (.atom k new)], false⟩","  some ⟨z, [], false⟩","symbol deleted")
m('co20','expectNot',"  some (fixAt z (prefixedText f (if fnName f = cs! \"expect_true\"","  some ((fun x => (⟨z, x, innerComments (toks inner)⟩ : Edit)) (prefixedText f (if fnName f = cs! \"expect_true\"","only comments in the object are looked for")

M=[]
def m(id,definition,old,new,edit,claim='C77',file='SuppressionEdit.lean'):
    M.append(dict(id=id,file=file,definition=definition,old=old,new=new,edit=edit,claim=claim))
m('pl1','inlinePoint','| some indent => some ⟨offset, indent, true⟩','| some indent => some ⟨offset + 1, indent, true⟩','the comment goes behind the first byte of the expression')
m('pl2','isOnOwnLine','some (linePrefix.all isWs)','some (linePrefix.any isWs)','a line prefix with one blank counts as empty')
m('pl3','commentLines','explanation ++ cs! "\\n" ++','explanation ++ cs! " " ++','no line break behind the comment')
m('pl4','commentLines','cs! "# jarl-ignore "','cs! "jarl-ignore "','the comment sign is missing')
m('pl5','nodeStart','((beforeToks fs).length + (toks e).length)).1','((beforeToks fs).length + (toks e).length)).2','the end of the node instead of its start',file='Place.lean')
m('pl6','nodeStart','src.pieces (beforeToks fs).length (','src.pieces ((beforeToks fs).length + 1) (','the second token of the node',file='Place.lean')
m('pl7','computeInlineIndent',"List.replicate (blen before) ' '","List.replicate (blen before) '.'",'wrong fill character')
m('pl8','addIgnoreToFile','(fun a b => b.point.offset ≤ a.point.offset)) content','(fun a b => a.point.offset ≤ b.point.offset)) content','insertions from the front to the back')
m('pl9','insertStr','some (a, b) => some (a ++ t ++ b)','some (a, b) => some (a ++ t ++ b.drop 1)','a character is overwritten')
m('pl10','walkUp','| some s => inlinePoint source s\n      | none => lineStartPoint source diagStart','| some s => inlinePoint source s\n      | none => inlinePoint source diagStart','the fallback splits the line')
m('pl11','walkUp','| some true => lineStartPoint source s\n            | some false => inlinePoint source s','| some true => inlinePoint source s\n            | some false => lineStartPoint source s','the two places are swapped')
m('pl12','walkUp','(if own && firstOwn.isNone then','(if firstOwn.isNone then','own line is not asked for')
m('pl13','walkUp','if own then lineStartPoint source n.start\n            else walkUp source diagStart rest lastM firstOwn','lineStartPoint source n.start','control flow stops the search even in the middle of a line')
m('pl14','ignoreActionAt','(cs! "<reason>")','(cs! "<reason>\\n")','a line break in the placeholder of the reason',file='LspActions.lean')
m('pl15','meaningfulNode','| .un .. => true\n  | _ => false','| _ => false','operators with one operand are left out',file='Place.lean')
m('pl16','controlFlowNode','| .func .. => true\n  | _ => false','| .func .. => true\n  | .call .. => true\n  | _ => false','calls count as control flow',file='Place.lean')
m('pl17','placeChain','placeInfo src (f :: fs) e ++ placeChain src fs (f.fill e)','placeInfo src (f :: fs) e','the search does not go up',file='Place.lean')
m('pl18','placeInfo','if isParam fs e then [⟨true, false, nodeStart src fs e⟩]','if isParam fs e then [⟨true, false, nodeStart src fs e + 1⟩]','wrong start of parameters',file='Place.lean')

M=[]
def m(id,definition,old,new,edit,claim,file='Sprintf.lean'):
    M.append(dict(id=id,file=file,definition=definition,old=old,new=new,edit=edit,claim=claim))
m('sp1','typeChars',"'a', 'A', 's'","'a', 's'",'%A not known','C54')
m('sp2','typeChars',"'a', 'A', 's'","'a', 'A', 's', 'u'",'%u accepted','C54')
m('sp3','isFlag'," || c = '#'","",'flag # not known','C54')
m('sp4','isFlag'," || c = '0'","",'flag 0 not known','C54')
m('sp5','readWidth',"| '*' :: r => (1, r)","| '*' :: r => (0, r)",'* takes no argument','C54')
m('sp6','readPrecision',"| '.' :: r => readWidth r","| '.' :: r => (0, r.dropWhile Char.isDigit)",'.* not known','C54')
m('sp7','readPosition',"(some v, r)","(some v, '$' :: r)",'$ not skipped','C54')
m('sp8','readPosition',"| _ => (none, s)","| t => (none, t)",'position not reset','C54')
m('sp9','readItem',"(.conv p (1 + w + q), r)","(.conv p (w + q), r)",'the value itself not counted','C54')
m('sp10','readItem',"(.bad, c :: r)","(.bad, r)",'the character behind an invalid % skipped','C54')
m('sp11','readItem',"if c ∈ typeChars then (.conv p (1 + w + q), r) else (.bad, c :: r)","(.conv p (1 + w + q), r)",'type not checked','C54')
m('sp12','Fmt.add',"max m.maxPos (p.getD 0)","p.getD m.maxPos",'the last position instead of the highest','C54')
m('sp13','Fmt.add',"out := m.out ++ ['%']","out := m.out ++ ['%', '%']",'%% kept in the text','C54')
m('sp14','Fmt.expected',"if m.positional then m.maxPos else m.args.sum","m.args.sum",'positions ignored','C54')
m('sp15','Fmt.expected',"m.args.sum","m.convs",'* not counted','C54')
m('sp16','checkFormat',"if m.invalid ≠ 0 then some .invalid\n  else if m.convs = 0","if m.convs = 0",'invalid formats not reported','C54')
m('sp17','checkFormat',"m.expected ≠ given","m.expected > given",'too many arguments not reported','C54')
m('sp18','readItem',"match s.dropWhile isWs with\n  | [] => (.bad, [])\n  | '%' :: r => (.percent, r)","match s.dropWhile isWs with\n  | [] => (.percent, [])\n  | '%' :: r => (.percent, r)",'a % at the end accepted','C54')
m('sp19','readFormat',"readFormat n s { m with out := m.out ++ [c] }","readFormat n s { m with out := c :: m.out }",'text reversed','C54')
m('sp20','checkFormat',".mismatch m.expected given",".mismatch given m.expected",'numbers swapped in the message','C54')
m('sp21','sprintfReport',"  guard (!afterPipe z.fs)\n  let a ← argBy (items args) (cs! \"fmt\") 0","  let a ← argBy (items args) (cs! \"fmt\") 0",'pipes not left alone','C54','RRules.lean')
m('sp22','sprintfReport',"(unnamedArgs (items args)).length - 1)","(unnamedArgs (items args)).length)",'the format counted as an argument','C54','RRules.lean')
m('sp23','sprintfReport',"argBy (items args) (cs! \"fmt\") 0","argBy (items args) (cs! \"fmt\") 1",'wrong position','C54','RRules.lean')
m('sp24','sprintfRule',"| .useless s => some (fixAt z [tk (.atom .str s)])","| .useless _ => some (fixAt z [tk (.atom .str (cs! \"\\\"\\\"\"))])",'wrong text put in','C54','RRules.lean')
m('sp25','readItem',"(t.dropWhile isFlag)","t",'flags not skipped','C54')
m('sp26','parseUsize',"2 ^ 64 ≤ v","2 ^ 32 ≤ v",'positions limited to 32 bits','C54')

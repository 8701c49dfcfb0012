M=[]
def m(id,definition,old,new,edit,claim,file='RVisit.lean'):
    M.append(dict(id=id,file=file,definition=definition,old=old,new=new,edit=edit,claim=claim))
m('rv1','visit','visit (.callA f g b g2 :: fs) args)','[])','arguments not walked into','C53')
m('rv2','visit','  | .paren g e g2 => .node ⟨fs, .paren g e g2⟩ :: visit (.paren g g2 :: fs) e','  | .paren g e g2 => [.node ⟨fs, .paren g e g2⟩]','parentheses not walked into','C53')
m('rv3','visit','visit (.binL g o r :: fs) l ++ visit (.binR l g o :: fs) r','visit (.binL g o r :: fs) l ++ visit (.binL g o r :: fs) l','left side twice','C53')
m('rv4','visit','(visit (.ieT g g2 c g3 g4 e :: fs) t ++ visit (.ieE g g2 c g3 t g4 :: fs) e)','visit (.ieT g g2 c g3 g4 e :: fs) t','else not walked into','C53')
m('rv5','visit','b = .par ∧ isNs f = true','isNs f = true','a::b[1]','C53')
m('rv6','visit','.loopVar ⟨fs, .forE g g2 gv v gi s g3 b⟩ ::\n      ','','loop variable left out','C53')
m('rv7','visitParams','| .named g k s g2 e => visit (.named g k s g2 :: fs) e\n  | _ => []\nend','| _ => []\nend','defaults left out','C53')
m('rv8','visitParams','visitParams (.commaA g rest :: fs) a ++ visitParams (.commaR a g :: fs) rest','visitParams (.commaA g rest :: fs) a','only the first parameter','C53')
m('rv9','visit','  | .named g k s g2 e => visit (.named g k s g2 :: fs) e\n  | .comma a g rest => visit','  | .named g k s g2 e => []\n  | .comma a g rest => visit','named arguments left out','C53')
m('rv10','callRules','cs! "grepv", ','','a rule forgotten','C53')
m('rv11','binaryRules','cs! "seq", ','','a rule forgotten','C53')
m('rv12','callRules','cs! "browser", ','','a rule forgotten','C53')
m('rv13','rulesAt','| .whileE .. => [cs! "repeat"]','| .repE .. => [cs! "repeat"]','wrong kind of loop','C53')
m('rv14','rulesAt','| .call _ _ .brk _ _ => [cs! "sort"]','| .call _ _ .brk2 _ _ => [cs! "sort"]','[[ instead of [','C53')
m('rv15','rulesAt','[cs! "coalesce", cs! "if_always_true", cs! "unnecessary_nesting"]','[cs! "coalesce", cs! "coalesce", cs! "if_always_true", cs! "unnecessary_nesting"]','called twice','C53')
m('rv16','reported','((rulesAt v).filter enabled)','(rulesAt v)','disabled rules called','C53')
m('rv17','visit','  | .scons e semis rest => visit (.sconsE semis rest :: fs) e ++ visit (.sconsR e semis :: fs) rest','  | .scons e semis rest => visit (.sconsE semis rest :: fs) e','only the first statement','C53')
m('rv18','visit','visit (.whileC g g2 g3 b :: fs) c ++ visit (.whileB g g2 c g3 :: fs) b','visit (.whileB g g2 c g3 :: fs) b','condition of while left out','C53')
m('rv19','visit','  | .ext l g b g2 k s => [.node ⟨fs, .ext l g b g2 k s⟩]','  | .ext l g b g2 k s => .node ⟨fs, .ext l g b g2 k s⟩ :: visit (.ext g b g2 k s :: fs) l','objects of $ walked into (the bug F15 mended: the description must follow)','C53')
m('rv20','rulesAt','| .un .. => [cs! "comparison_negation"]','| .un .. => []','no rule for unary operators','C53')
m('rv21','fixRules','(cs! "expect_not", expectNot), ','','a rule without its fix','C53')
m('rv22','fixesOf','(fun q => q.1 = n)','(fun _ => true)','all rules run under every name','C53')

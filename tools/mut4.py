M=[]
def m(id,file,definition,old,new,edit,claim):
    M.append(dict(id=id,file=file,definition=definition,old=old,new=new,edit=edit,claim=claim))
S='LspServer.lean'
m('lv1',S,'handleMsg didOpen','some (TextDoc.new t v)) }','some (TextDoc.new t 0)) }','version of an opened document ignored','C46_published')
m('lv2',S,'handleMsg didClose','{ s with docs := setDoc s.docs u none } : ServerState).send (.publish u [] none)','s : ServerState).send (.publish u [] none)','document stays open','C46 (a closed document is not linted)')
m('lv3',S,'handleMsg didSave','| some sn => some (s.push (.lint sn))','| some _ => some s','save not analysed','C46_everything_done')
m('lv4',S,'handleMsg codeAction','| none => some (s.send (.error id))','| none => some s','request of a closed document not answered','C46_everything_done')
m('lv5',S,'handleMsg shutdown','(({ s with stopped := true } : ServerState).send (.ack id))','{ s with stopped := true }','shutdown not acknowledged','C46_everything_done')
m('lv6',S,'ServerState.snapshot','⟨u, d.content, d.version⟩','⟨u, d.content, d.version - 1⟩','wrong version in the snapshot','C46_published')
m('lv7',S,'ServerState.push','queue := s.queue ++ [t]','queue := [t]','waiting tasks dropped','C46_everything_done')
m('lv8',S,'ServerState.push','queue := s.queue ++ [t]','queue := t :: s.queue','last in first out','C46_single_worker')
m('lv9',S,'WorkStep.lintOk','[.publish sn.uri ds (some sn.version)]','[.publish sn.uri ds none]','published without version','C46_everything_done')
m('lv10',S,'WorkStep.lintOk','{ s with running := a ++ b, idle := s.idle + 1, out := s.out ++ [.publish','{ s with running := a ++ b, out := s.out ++ [.publish','worker does not come back','C46_workers_finish')
m('lv11',S,'WorkStep.actionErr','{ s with running := a ++ b, idle := s.idle + 1, out := s.out ++ [.actions id []] }','{ s with running := a ++ b, idle := s.idle + 1 }','failed request not answered','C46_everything_done')
m('lv12',S,'WorkStep.take','queue := q, running := s.running ++ [t]','running := s.running ++ [t]','task taken twice','C46_everything_done')
m('lv13',S,'handleMsg otherRequest','| .otherRequest id => some (s.send (.error id))','| .otherRequest id => some s','unknown requests not answered','C46_everything_done')
m('lv14',S,'handleMsg didClose',').send (.publish u [] none)',')','diagnostics not cleared when a document is closed','C46 (closing clears)')
m('lv15',S,'WorkStep.lintOk','[.publish sn.uri ds (some sn.version)]','[.publish sn.uri [] (some sn.version)]','empty diagnostics published','C46_published')

M=[]
def m(id,definition,old,new,edit,claim='C76',file='LspNotice.lean'):
    M.append(dict(id=id,file=file,definition=definition,old=old,new=new,edit=edit,claim=claim))
m('no1','negotiate','| none => .utf16\n  | some l','| none => .utf8\n  | some l',"UTF-8 without an offer")
m('no2','negotiate','else if l.any (fun k => encOfName k = some .utf16) then .utf16\n    else .utf16','else if l.any (fun k => encOfName k = some .utf16) then .utf16\n    else .utf32',"UTF-32 as the last resort")
m('no3','negotiate','if l.any (fun k => encOfName k = some .utf8) then .utf8','if l.head?.any (fun k => encOfName k = some .utf8) then .utf8',"only the first offer is looked at")
m('no4','encOfName','if k = cs! "utf-8" then some .utf8','if k = cs! "utf8" then some .utf8',"a wrong name of the protocol")
m('no5','configElsewhere','if d ≠ cwd then some p else none','if d = cwd then some p else none',"the notice is shown for the working directory")
m('no6','configElsewhere','match canonical p.dropLast with\n    | none => none','match canonical p.dropLast with\n    | none => some p',"a directory that cannot be resolved counts as elsewhere")
m('no7','hiddenCount','if total > threshold then total else 0','if total ≥ threshold then total else 0',"off by one at the threshold")
m('no8','hiddenCount','if named then 0 else if','if',"notice although the rule was named")
m('no9','hiddenCount','if total > threshold then total else 0','if total > threshold then total - threshold else 0',"only the excess is counted")
m('no10','openNotice','if s.configShown then s','if false then s',"the configuration notice is shown for every document")
m('no11','openNotice','configShown := true }','configShown := s.configShown }',"the flag is not set")
m('no12','NoticeStep.swap','notified := true }\n  | notify','notified := s.notified }\n  | notify',"the flag is only read")
m('no13','NoticeStep.notify','out := s.out ++ [.hiddenNotice n] }','out := s.out ++ [.hiddenNotice n], notified := false }',"the flag is cleared after showing")
m('no14','NoticeStep.lintOk','if n > 0 then Phase.linted ds n else Phase.toPublish ds) :: b }','Phase.linted ds n) :: b }',"the notice is shown although nothing is hidden")
m('no15','NoticeStep.notify','| notify {e s a sn b ds n} : s.running = a ++ (Task.lint sn, Phase.toNotify ds n) :: b →\n      NoticeStep env e s e { s with running := a ++ (Task.lint sn, Phase.toPublish ds) :: b,','| notify {e s a sn b ds n} : s.running = a ++ (Task.lint sn, Phase.toNotify ds n) :: b →\n      NoticeStep env e s e { s with running := a ++ b,',"the reports are not published after the notice")
m('no16','handleNotice','| .didOpen .. => some (s\'.openNotice c)','| .didSave .. => some (s\'.openNotice c)',"the notice comes with saving")
m('no17','handleNotice','out := s.out ++ r.out.map NoticeMsg.msg','out := r.out.map NoticeMsg.msg ++ s.out',"messages are sent in another order")
m('no18','NoticeStep.swap','if s.notified then Phase.toPublish ds else Phase.toNotify ds n','if s.notified then Phase.toNotify ds n else Phase.toPublish ds',"the flag is read the wrong way")
m('no19','NoticeStep.swap','if s.notified then Phase.toPublish ds else Phase.toNotify ds n','Phase.toNotify ds n',"the flag is not looked at")
m('no20','noticedConfig','l.findSome? (configElsewhere canonical cwd)','(l.take 1).findSome? (configElsewhere canonical cwd)',"only the first configuration is looked at")
m('no21','NoticeStep.publish','out := s.out ++ [.msg (.publish sn.uri ds (some sn.version))]','out := s.out ++ [.msg (.publish sn.uri [] (some sn.version))]',"nothing is published")

M=[]
def m(id,definition,old,new,edit,claim,file='Cfg.lean'):
    M.append(dict(id=id,file=file,definition=definition,old=old,new=new,edit=edit,claim=claim))
m('cg1','evalConst','if evalConst a = some true ∨ evalConst b = some true then some true','if evalConst a = some true ∧ evalConst b = some true then some true','`x || TRUE` not constant','C38 (dead else branch of `if (x || TRUE)`)')
m('cg2','evalConst','if evalConst a = some false ∨ evalConst b = some false then some false\n    else if evalConst a = some true ∧ evalConst b = some true then some true','if evalConst a = some false ∨ evalConst b = some false then some false\n    else if evalConst a = some true ∨ evalConst b = some true then some true','`x && TRUE` is constant TRUE','C37')
m('cg3','evalConst','| .atom _ => none','| .atom _ => some true','unknown conditions count as TRUE','C37')
m('cg4','evalConst','| .fls => some false','| .fls => none','FALSE is not recognised','C38')
m('cg5','buildBreak','| l :: _ => (st.setTerm c .brk).addEdge c l.brk','| l :: _ => (st.setTerm c .brk).addEdge c l.next','break jumps to the loop header','C37 (code after a loop entered only by break: repeat) or equivalent')
m('cg6','buildNext','| l :: _ => (st.setTerm c .nxt).addEdge c l.next','| l :: _ => st.setTerm c .nxt','next has no edge','equivalent for reports: header is reachable anyway')
m('cg7','buildBreak','| [] => st\n\n/-- `build_next`','| [] => st.setTerm c .brk\n\n/-- `build_next`','break outside of a loop ends the block','C37/C38 (Jump needs a loop)')
m('cg8','buildCall','else if name ∈ stop then st.buildStop c','else if false then st.buildStop c','stopping functions ignored','C38/C39')
m('cg9','buildCall','if name = cs! "return" then st.buildReturn c','if callee = cs! "return" then st.buildReturn c','base::return not recognised','C38')
m('cg10','funName','(afterLastColons callee).getD callee','callee','namespaces not stripped','C38')
m('cg11','ifOpen','| some true => (st.addEdge c n).addPred (n + 1) c','| some true => (st.addEdge c n).addEdge c (n + 1)','else branch of if(TRUE) reachable','C38')
m('cg12','ifOpen','| some false => (st.addEdge c (n + 1)).addPred n c','| some false => (st.addEdge c n).addPred (n + 1) c','if(FALSE) takes the then branch','C37')
m('cg13','ifOpen','| none => (st.addEdge c n).addEdge c (n + 1)','| none => st.addEdge c n','else edge missing','C37')
m('cg14','closeBranch','(st.setTerm last .goto).addEdge last after','st.setTerm last .goto','no edge from a branch to the code after','C37')
m('cg15','closeBranch','if (st.blk last).term.ends = false ∧ st.hasIncoming last = true then','if st.hasIncoming last = true then','branch ending in return flows on','C38')
m('cg16','closeBranch','if (st.blk last).term.ends = false ∧ st.hasIncoming last = true then','if (st.blk last).term.ends = false then','dead end of a branch flows on','C38 (if/else nested)')
m('cg17','loopOpen','let st := ((st.setTerm n .loop).addEdge n (n + 1)).addEdge n (n + 2)','let st := (st.setTerm n .loop).addEdge n (n + 1)','loop has no exit edge','C37')
m('cg18','loopOpen','{ st with loops := ⟨n, n + 2⟩ :: st.loops }','{ st with loops := st.loops }','loop context not pushed','C38/C39 (break in loop)')
m('cg19','loopClose','{ st with loops := st.loops.tail }','st','loop context not popped','C37 (break after the loop)')
m('cg20','repeatOpen','  st.addEdge n (n + 1)','  st','no edge out of repeat','(code after repeat without break would be reported: true code-motion) C37 still true? break adds its edge')
m('cg21','deadBlock','(st.newBlock.addPred u c)','(st.newBlock.addEdge c u)','edge to the dead block','C38')
m('cg22','deadBlock','rest.foldl (fun st r => st.addStatement u r) (st.newBlock.addPred u c)','st.newBlock.addPred u c','rest not recorded','C38')
m('cg23','deadBlock','(st.newBlock.addPred u c)','st.newBlock','predecessor not recorded','C39')
m('cg24','buildStmts','if (p.1.blk p.2).term.ends = true ∧ ss ≠ [] then','if false then','jumps do not end the block','C38')
m('cg25','buildStmt','if body then buildStmts stop ss c st else (st.addStatement c r, c)','buildStmts stop ss c st','nested braces entered','C37-39? sound; spec `BareBlock`')
m('cg26','ifThen','let st3 := (st2.setTerm (n + 1) .goto).addEdge (n + 1) (n + 2)','let st3 := st2.setTerm (n + 1) .goto','if without else: no fall-through','C37')
m('cg27','reachLoop','(((blockAt g b).succs.filter (fun s => !visited.contains s)).reverse ++ queue)','queue','successors not followed','C37')
m('cg28','reachable','reachLoop g (edgeCount g + 1) [] [0]','reachLoop g (edgeCount g + 1) [] [0, 1]','exit counted as start','equivalent: exit has no statements')
m('cg29','unreachableBlocks','if b == 0 || b == 1 || seen.contains b then none','if b == 0 || b == 1 || b == 2 || seen.contains b then none','block 2 skipped','C38')
m('cg30','blockRange','s.cover ((s :: ss).getLast?.getD s)','s','only the first statement reported','C38')
m('cg31','groupLoop','if cur.2 = x.2 ∧ x.1.start = cur.1.stop then','if cur.2 = x.2 then','groups with the same reason merged across gaps','C37')
m('cg32','groupLoop','else cur :: groupLoop (some x) xs','else groupLoop (some x) xs','a group is lost','C38')
m('cg33','predReason','| .brk => some .afterBreak','| .brk => some .afterNext','break explained as next','C39')
m('cg34','message','| .afterBreak => cs! "This code is unreachable because it appears after a break statement."','| .afterBreak => cs! "This code is unreachable because it appears after a next statement."','wrong text','C39')
m('cg35','unreachableTopLevel','x.2 ≠ .afterReturn ∧ x.2 ≠ .noPathFromEntry','x.2 ≠ .afterStop ∧ x.2 ≠ .noPathFromEntry','top level: after stop dropped','C39 top level')
m('cg36','resolveWithExtend','| none, some v => some (defaults ++ v)','| none, some v => some v','extend replaces','C40')
m('cg37','hasIncoming','b == 0 || (st.blk b).preds.any (fun p => (st.blk p).succs.contains b)','b == 0 || !(st.blk b).preds.isEmpty','recorded predecessors count as edges','C38')
m('cg38','Term.ends','| .ret | .brk | .nxt | .stop => true','| .ret | .brk | .stop => true','next does not end','C38')
m('cg39','unreachableTopLevel','x.2 ≠ .afterReturn ∧ x.2 ≠ .noPathFromEntry','x.2 ≠ .noPathFromEntry','top level: code after return reported','top-level return is not reported')
m('cg40','reasonOf','      .afterBranchTerminating\n    else','      .deadBranch\n    else','if/else reason lost','message after if/else')
m('cg41','ifEnd','if st.hasIncoming after = false then st.addPred after c else st','st','predecessor of the code after an if/else not recorded','message after if/else')
m('cg42','branchLoop','| none => branchLoop g fuel ss false found p.2','| none => branchLoop g fuel ss all found p.2','if/else considered terminating although one branch is not','message after if/else')

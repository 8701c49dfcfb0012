M=[]
def m(id,definition,old,new,edit,claim='C78',file='IgnoreReport.lean'):
    M.append(dict(id=id,file=file,definition=definition,old=old,new=new,edit=edit,claim=claim))
m('ir1','ignoreFile','| some left => some { st with disk := st.disk.set p left, lines := st.lines ++ [.cannotWrite p] }','| some left => some { st with disk := st.disk.set p left, lines := st.lines ++ [.cannotWrite p], total := st.total + numSuppressions edits }','comments that could not be written are counted in the summary')
m('ir2','ignoreFile','st.total + numSuppressions edits, st.files + 1⟩','st.total + numSuppressions edits, st.files⟩','files are not counted')
m('ir3','ignoreEnd','if st.total > 0 then','if st.files ≥ 0 then','the summary is always printed')
m('ir4','numSuppressions','((mergeEdits edits).map (·.rules.length)).sum','(mergeEdits edits).length','places are counted instead of comments')
m('ir5','numSuppressions','((mergeEdits edits).map (·.rules.length)).sum','edits.length','reports are counted instead of comments')
m('ir6','ignoreFile','| none => some { st with lines := st.lines ++ [.cannotRead p] }','| none => some st','unreadable files are skipped silently')
m('ir7','ignoreFile','st.lines ++ [.added (numSuppressions edits) p]','.added (numSuppressions edits) p :: st.lines','the lines are in the opposite order')
m('ir8','ignoreFile','if edits.isEmpty then some st','if edits.isEmpty then some { st with lines := st.lines ++ [.added 0 p] }','a line for files without comments')
m('ir9','ignoreFile','st.lines ++ [.cannotWrite p] }','st.lines ++ [.cannotRead p] }','the wrong error')
m('ir10','ignoreRun','if !reasonOk reason then some (.error ())\n  else if','if','the reason is not checked')
m('ir11','ignoreRun','some (.ok (d, [.noViolations]))','some (.ok (d, []))','nothing is said if there are no reports')
m('ir12','ignoreEnd','[.summary st.total st.files]','[.summary st.files st.total]','the numbers are swapped')
m('ir13','ignoreFile','⟨st.disk.set p (some text), st.lines','⟨st.disk, st.lines','nothing is written')
m('ir14','ignoreRun','(groupByFile (allDiagnostics rs)) ⟨d, [], 0, 0⟩','(allDiagnostics rs) ⟨d, [], 0, 0⟩','the files are not sorted')

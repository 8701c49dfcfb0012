M=[]
def m(id,file,definition,old,new,edit,claim):
    M.append(dict(id=id,file=file,definition=definition,old=old,new=new,edit=edit,claim=claim))
L='Lsp.lean'; A='LspActions.lean'; X='LspExclude.lean'
m('ls1',L,'lineStartsFrom',"if c = '\\n' then (i + 1) ::","if c = '\\n' then i ::",'line start is the newline itself','C41')
m('ls2',L,'lineStartsFrom','else lineStartsFrom (i + c.utf8Size) cs','else lineStartsFrom (i + 1) cs','characters counted instead of bytes','C41')
m('ls3',L,'walkLine','if character ≤ pos then','if character < pos then','walks one character too far','C41')
m('ls4',L,'TextDoc.lineRange','some (a, b - 1)','some (a, b)','line includes its newline','C41 (clamping)')
m('ls5',L,'offsetInLine','if character > blen lineContent then .err','if character ≥ blen lineContent then .err','position at the end of a line refused','C41')
m('ls6',L,'offsetInLine','if r.1 > character then .err else .ok r.2','.ok r.2','middle of a surrogate pair accepted','C41_any_position')
m('ls7',L,'TextDoc.positionToOffset','if p.line ≥ d.lineStarts.length then .err','if p.line > d.lineStarts.length then .err','line after the last accepted (panic)','C41_any_position')
m('ls8',L,'lineIndex','if i = 0 then 0 else i - 1','i','next line chosen','C41')
m('ls9',L,'columnInLine','| some (pre, _) => .ok (sum16 pre)','| some (pre, _) => .ok pre.length','UTF-16 columns count characters','C41')
m('ls10',L,'len16','if c.toNat < 0x10000 then 1 else 2','if c.toNat < 0xffff then 1 else 2','U+FFFF counted twice','C41')
m('ls11',L,'TextDoc.resolveChanges','d.positionToOffset r.stop enc','d.positionToOffset r.start enc','end of the range ignored','C42')
m('ls12',L,'insertDesc','if y.1 ≤ x.1 then x :: y :: ys','if x.1 ≤ y.1 then x :: y :: ys','changes applied front to back','C42')
m('ls13',L,'applyResolved','if a > blen content ∨ b > blen content','if a ≥ blen content ∨ b > blen content','no insertion at the end of the document','C42')
m('ls14',L,'TextDoc.applyChanges','(⟨content, newVersion, computeLineStarts content⟩, .ok ())','(⟨content, newVersion, d.lineStarts⟩, .ok ())','line cache not refreshed','C42_history')
m('ls15',L,'scanPos','if i ≥ target then','if i > target then','one character late','C41_diagnostic_position')
m('ls16',L,'scanPos',"then scanPos content target enc (i + 1) (line + 1) (i + 1) cs","then scanPos content target enc (i + 1) (line + 1) i cs",'line start before the newline','C41_diagnostic_position')
m('ls17',L,'scanPos','| .utf16 => sum16 lc','| .utf16 => target - ls','bytes at the end of the file','C41_diagnostic_position')
m('ls18',L,'byteOffsetToLspPosition','if byteOffset > blen content then .err','if byteOffset ≥ blen content then .err','end of file refused','C41_diagnostic_position')
m('ls19',L,'serverOffsetToPosition','| some (a, _) => blen a + 1','| some (a, _) => blen a','column off by one','C41_insertion_position_utf8')
m('ls20',L,'rangesOverlap','a.start.le b.stop && b.start.le a.stop','a.start.le b.stop','only one bound checked','C41_overlap')
m('ls21',L,'LPos.le','a.line < b.line || (a.line == b.line && a.ch ≤ b.ch)','a.line ≤ b.line && a.ch ≤ b.ch','componentwise order','C41_order')
m('la1',A,'convertToLsp','byteOffsetToLspPosition d.range.stop content enc','byteOffsetToLspPosition d.fix.stop content enc','end of the fix instead of the end of the report','C44')
m('la2',A,'convertToLsp','d.body ++ cs! " " ++ s','d.body','suggestion lost','C44')
m('la3',A,'convertToLsp','d.hasSafeFix, d.name','!d.hasUnsafeFix, d.name','no fix counts as safe','C44')
m('la4',A,'hideUnusedLsp','if named then ds','if false then ds','named rule hidden too','C44')
m('la5',A,'hideUnusedLsp','total > threshold','total ≥ threshold','boundary','C44')
m('la6',A,'hideUnusedLsp','ds.filter (fun d => d.name ≠ Rule.unusedFunction.name)','[]','everything hidden','C44')
m('la7',A,'fixAction','if f.content = [] ∧ f.start = f.stop then .ok none','if f.content = [] then .ok none','deletions not offered','C44_fix_action')
m('la8',A,'fixAction','.ok (some ⟨⟨⟨a, b⟩, f.content⟩, f.isSafe⟩)','.ok (some ⟨⟨⟨a, b⟩, f.content⟩, true⟩)','unsafe fixes preferred','C44_fix_action')
m('la9',A,'fixAction','byteOffsetToLspPosition f.stop content enc','byteOffsetToLspPosition f.diagEnd content enc','end of the diagnostic','C44_fix_action')
m('la10',A,'withLine','some ⟨p, countNl before⟩','some ⟨p, countNl before + 1⟩','one-based line','C45_r_file')
m('la11',A,'alreadySuppressed','(rustLines content)[lp.line - 1]?','(rustLines content)[lp.line]?','wrong line looked at','C45_not_twice')
m('la12',A,'ignoreActionAt','formatSuppressionComments [rule] (cs! "<reason>") lp.point.indent lp.point.needsLeadingNewline','formatSuppressionComments [rule] [] lp.point.indent lp.point.needsLeadingNewline','no reason','C45_r_file')
m('la13',A,'ignoreActionAt','⟨⟨⟨⟨lp.line, 0⟩, ⟨lp.line, 0⟩⟩, text⟩, false⟩','⟨⟨⟨⟨lp.line, 0⟩, ⟨lp.line + 1, 0⟩⟩, text⟩, false⟩','the line is replaced','C45_r_file')
m('la14',A,'insertPointRmd','offset := lp.point.offset + c.startByte','offset := lp.point.offset','offset not remapped','C45_document_inline')
m('la15',A,'chunkComment','#|   - " ++ rule','#|   " ++ rule','no dash','C45_chunk_action_edit')
m('la16',A,'ignoreChunkAction','serverOffsetToPosition content c.startByte','serverOffsetToPosition content f.diagStart','inserted at the diagnostic','C45_chunk_action_edit')
m('la17',A,'ignoreChunkAction','|| containsSub (cs! "- " ++ f.ruleName ++ cs! ":") c.code','','array form not recognised','C45_chunk_action')
m('la18',A,'lspChunkOf','c.startByte ≤ diagStart && diagStart ≤','c.startByte ≤ diagStart || diagStart ≤','wrong chunk','C45_chunk_action_edit')
m('lx1',X,'globBranch','if ps ≠ [] ∧ endsWith (parts.getLast?.getD []) filename = false then false','if false then false','the end of the name is not anchored','C43_pattern')
m('lx2',X,'globBranch','match stripPrefix p0 filename with','match (findSub p0 filename).map Prod.snd with','the start of the name is not anchored','C43_pattern')
m('lx3',X,'partsInOrder','| some (_, after) => partsInOrder ps after','| some _ => partsInOrder ps rest','parts may overlap','C43_pattern')
m('lx4',X,'matchesPattern','(splitOn \'/\' np).any (fun c => decide (c = dir))','decide (lastComponent np = dir)','only the last component','C43_pattern')
m('lx5',X,'normalizeSeps',"if c = '\\\\' then '/' else c",'c','backslashes do not separate','C43_pattern')
m('lx6',X,'shouldExcludeBySettings','s.defaultExclude.getD true','s.defaultExclude.getD false','default patterns off by default','C43_excluded')
m('lx7',X,'shouldExcludeBySettings','if !inc.isEmpty && !(inc.any (matchesPattern path)) then true','if !(inc.any (matchesPattern path)) then true','an empty include list excludes everything','C43_excluded')
m('lx8',X,'shouldExcludeBySettings','!(inc.any (matchesPattern path))','!(inc.all (matchesPattern path))','all include patterns must match','C43_excluded')
m('la19',A,'alreadySuppressed','| some (some rules) => rules.contains rule','| some _ => true','any suppression hides the action','C45 (other rules on the line before)')
m('la20',A,'alreadySuppressed','if lp.line > 0 && !lp.point.needsLeadingNewline then','if lp.line > 0 then','also for inline insertion','C45_offered')
m('la21',A,'ignorePoint','else (insertPointR anc content f.diagStart f.diagEnd).map some','else some none','never offered in R files','C45_offered')

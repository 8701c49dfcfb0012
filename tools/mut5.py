M=[]
def m(id,file,definition,old,new,edit,claim):
    M.append(dict(id=id,file=file,definition=definition,old=old,new=new,edit=edit,claim=claim))
D='Discovery.lean'
m('dc1',D,'walkDirs','| some (some s) => some (a :: seen, some (a, s))\n      | some none => none\n      | none => if fs.userDir = some a then some (a :: seen, none) else walkDirs fs as (a :: seen)','| some (some s) => some (a :: seen, some (a, s))\n      | some none => none\n      | none => some (a :: seen, none)','only the path itself is looked at','C47_nearest_config')
m('dc2',D,'walkDirs','if a ∈ seen then some (seen, none)','if a ∈ seen then none','visited directory is an error','C47_false_user_config_loaded')
m('dc3',D,'walkDirs','some (a :: seen, some (a, s))','some (a :: seen, none)','configuration found but dropped','C47_nearest_config')
m('dc4',D,'discoverOne','| some (seen\', some x) => some (seen\', acc ++ [x])','| some (seen\', some x) => some (seen\', [x])','earlier configurations forgotten','C47_nearest_config')
m('dc5',D,'discoverNested','if d = root then discoverNested fs root ds acc\n    else ','if fs.toml root ≠ none then discoverNested fs root ds acc\n    else ','nested configurations ignored below a configured directory','C47_nearest_config')
m('dc6',D,'discoverNested','else if d ∈ acc.map Prod.fst then discoverNested fs root ds acc','else if acc ≠ [] then some acc','walk stops early','C47_nearest_config')
m('dc7',D,'discoverSettings','| some acc => discoverDown fs paths acc','| some acc => some acc','no nested configurations','C47_nearest_config')
m('dc8',D,'resolvePath','(ancestors f).findSome?','(ancestors f).reverse.findSome?','farthest configuration','C47_nearest_config')
m('dc9',D,'addToGroup','if k = key then (k, fs ++ [f]) :: gs else','if k = key then (k, [f]) :: gs else','group overwritten','C47_each_file_once')
m('dc10',D,'addToGroup','| [] => [(key, [f])]','| [] => [(key, [])]','first file of a group lost','C47_each_file_once')
m('dc11',D,'groupSettings','(items.find? (fun x => x.1 = dir)).map Prod.snd','items.head?.map Prod.snd','first configuration used for every group','C47_each_file_once')
m('dc12',D,'editorSettings','items.head?.map Prod.snd','items.getLast?.map Prod.snd','last configuration in the editor','C47_editor')
m('dc13',D,'userFallback','if c ∈ seen then some (seen, acc)','if c ∉ seen then some (seen, acc)','fallback condition inverted','C47_false_user_config (editor part)')
m('dc14',D,'discoverOne','| some (seen\', none) => userFallback fs seen\' acc','| some (seen\', none) => some (seen\', acc)','no fallback','C47_false_user_config (editor part)')
m('dc15',D,'ancestors','(List.range (p.length + 1))','(List.range p.length)','path itself skipped','C47_nearest_config')
m('dc16',D,'discoverNested','| some (some s) => discoverNested fs root ds (acc ++ [(d, s)])\n      | some none => none','| some (some s) => discoverNested fs root ds (acc ++ [(d, s)])\n      | some none => discoverNested fs root ds acc','invalid nested configuration ignored','C47_nearest_config')

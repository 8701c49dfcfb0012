#!/usr/bin/env python3
"""Seeded-bug harness: for each mutation, edit a scratch copy of the Lean project, rebuild, and record which theorems
fail.  usage: mutate.py MUTFILE [ids...]   (MUTFILE: python file defining M = [dict(id, file, definition, old, new, edit,
claim, expect)]).  Results are appended to /tmp/mut/results.jsonl; tools/mutlog.py turns them into seeded/LOG.jsonl."""
import sys, os, re, json, subprocess, shutil, runpy
from concurrent.futures import ThreadPoolExecutor
SRC='/verif/lean'; W='/tmp/mut'
os.makedirs(W, exist_ok=True)
decl=re.compile(r'^(?:@\[[^\]]*\]\s*)?(?:private |protected |noncomputable )*(theorem|def|example|instance|abbrev|inductive|structure|lemma)\b\s*([^\s:({\[]*)')
def enclosing(path, line):
    name='?'
    for i,l in enumerate(open(path),1):
        if i>line: break
        m=decl.match(l)
        if m: name = m.group(2) or (m.group(1)+'@'+str(i))
    return name
def run(m, slot):
    d=f'{W}/s{slot}'
    shutil.rmtree(d,ignore_errors=True); subprocess.run(['cp','-a',SRC,d],check=True)
    p=f'{d}/Verif/{m["file"]}'
    s=open(p).read()
    if s.count(m['old'])!=1:
        return dict(m, status='BAD: old occurs %d times'%s.count(m['old']))
    open(p,'w').write(s.replace(m['old'],m['new']))
    for f2,o2,n2 in m.get('also',[]):
        q=f'{d}/Verif/{f2}'; t=open(q).read()
        if t.count(o2)!=1: return dict(m, status='BAD: also occurs %d times: %s'%(t.count(o2),o2))
        open(q,'w').write(t.replace(o2,n2))
    try:
        r=subprocess.run(['lake','build','Verif'],cwd=d,capture_output=True,text=True,timeout=1500)
    except subprocess.TimeoutExpired:
        return dict(m,status='TIMEOUT')
    out=r.stdout+r.stderr
    fails={}
    for f,l,msg in re.findall(r'error: (?:\./)?(Verif/[\w/]+\.lean):(\d+):\d+: (.*)',out):
        n=enclosing(f'{d}/{f}',int(l))
        fails.setdefault(f[6:-5],[]) 
        if n not in fails[f[6:-5]]: fails[f[6:-5]].append(n)
    if fails.get(m['file'][:-5]): return dict(m,status='BAD: the edited model does not compile',failed=fails)
    return dict(m,status='killed' if r.returncode else 'SURVIVED',failed=fails)
if __name__=='__main__':
    M=runpy.run_path(sys.argv[1])['M']; ids=set(sys.argv[2:])
    M=[m for m in M if not ids or m['id'] in ids]
    import queue
    q=queue.Queue(); [q.put(i) for i in range(2)]
    def go(m):
        s=q.get()
        try: r=run(m,s)
        finally: q.put(s)
        with open(f'{W}/results.jsonl','a') as f: f.write(json.dumps(r)+'\n')
        print(r['id'],r['status'],json.dumps(r.get('failed')),flush=True)
    with ThreadPoolExecutor(2) as ex: list(ex.map(go,M))

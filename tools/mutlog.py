#!/usr/bin/env python3
"""Turn /tmp/mut/results.jsonl into lines of seeded/LOG.jsonl (appending those not yet logged).
usage: mutlog.py ; TIGHTENED maps mutation ids to the theorems that were added or tightened because of them."""
import json, os
T={'ru29':['C73_editor_hides (added)'],'wa31':['CheckedName (spec), C68_checked'],'tx11':['C66_gaps'],'ou32':['C62_sections'],'ou45':['C62_sections'],'ou46':['C62_sections'],'ou47':['C62_sections'],'ou48':['C30_printed'],'ou49':['C30_printed','C60_false_statistics'],'ou50':['C30_printed'],'cf9':['C07_lists'],'ch9':['C35_reported'],'ch10':['C17_location_partial'],'ch11':['C16_outdated_file'],'ch12':['C15_documents','C21_documents_untouched'],
   'su16':['TrailsCode (spec), sameLine_iff'],'su17':['C35_reported'],'cf13':['C36_flags'],'cf14':['C36_flags'],'cf15':['C36_flags'],'de5':['C26_depends_versions'],'cg39':['C39_top_level_reports'],'la21':['C45_offered (added)'],'la20':['C45_offered (added)'],'pk39':['RFile (spec)'],'pk40':['CFile (spec), C49_reported'],'pk49':['HasExt (spec), C48_reported, C49_reported'],'lv14':['C46_closing_clears (added)'],'rr62':['C52_true_false_left_alone (added)'],'rc3':['C80_said_ranges (added)'],'rc4':['C80_fix_ranges (added)'],'rc14':['C80_handed_on (added)'],'au13':['C39_reports_in_order (added)'],'au14':['C39_reports_in_order (added)'],'au53':['C07_fixes'],'au83':['C81_colours (added)'],'au143':['C54 (piped, spec)'],'au160':['C82_documented_partial (added)'],'au168':['C49_unused_message (added)'],'au169':['C49_unused_message (added)'],}
EQ={'pk10','pk22','dc12','loc3','loc4','se6','ch16','au46'}
f='/verif/seeded/LOG.jsonl'
seen=set()
if os.path.exists(f):
    for l in open(f):
        d=json.loads(l); seen.add((d['id'],d['result'],json.dumps(d['failed'],sort_keys=True)))
out=open(f,'a')
for l in open('/tmp/mut/results.jsonl'):
    r=json.loads(l)
    if r['status'].startswith('BAD') or r['status']=='TIMEOUT': continue
    res=r['status'].lower()
    if r['id'] in EQ and res=='survived': res='survived: equivalent for the claims (no observable difference)'
    failed=[f'{m}: {n}' for m,ns in (r.get('failed') or {}).items() for n in ns]
    key=(r['id'],res,json.dumps(failed,sort_keys=True))
    if key in seen: continue
    seen.add(key)
    out.write(json.dumps(dict(id=r['id'],definition=f"{r['file']}: {r['definition']}",edit=r['edit'],claim=r['claim'],result=res,failed=failed,tightened=T.get(r['id'],[])),ensure_ascii=False)+'\n')

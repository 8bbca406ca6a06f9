#!/usr/bin/env python3
"""Turn results of the seeded-bug runs (scratch copies outside /verif) into seeded/LOG.jsonl."""
import json,re,glob,os
T={}
for f in glob.glob('/verif/lean/Verif/Props/*.lean'):
    for m in re.finditer(r'^theorem (C\d+)(\S*)',open(f).read(),re.M): T.setdefault(m.group(1),[]).append(m.group(1)+m.group(2))
tight=json.load(open('/verif/tools/tightened.json'))
with open('/verif/seeded/LOG.jsonl','w') as o:
    for l in open('/root/work/mutres.jsonl'):
        d=json.loads(l)
        direct=[x for x in d['failed']]
        pr=[x.split(':')[1] for x in direct if x.startswith('Props/')]
        rec=dict(definition=d['def'],file='lean/Verif/'+d['file'],edit=dict(old=d['old'],new=d['new']),claim=d['claim'],claims=d.get('claims',[]),
          build='passed' if d['build_ok'] else 'failed',
          first_failing_declarations=direct,
          theorems_failed=pr if pr else ([] if d['build_ok'] else sorted(t for c in d.get('claims',[]) for t in T.get(c,[]))),
          note=('' if d['build_ok'] or pr else 'the failing lemmas are in the dependencies of the listed theorems, which are then not accepted'),
          theorems_tightened=d.get('tightened',tight.get(d['def'],[])))
        if d.get('comment'): rec['comment']=d['comment']
        o.write(json.dumps(rec)+'\n')

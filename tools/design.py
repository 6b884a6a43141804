#!/usr/bin/env python3
"""Regenerates the table between the markers in DESIGN.md from properties.jsonl and MANIFEST.json."""
import json, os
here=os.path.dirname(os.path.abspath(__file__)); root=os.path.join(here,'..')
P={}
for l in open(os.path.join(root,'properties.jsonl')):
    o=json.loads(l); P[o['id']]=o
M=json.load(open(os.path.join(root,'MANIFEST.json')))
rows=['| Property | Status | Theorems | Scope, and what is missing or false |','|---|---|---|---|']
for c in M['claims']:
    rows.append('| %s %s | %s | %s | %s |'%(c['property'],P[c['property']]['title'],c['status'],', '.join('`%s`'%t.replace('Pscm.','') for t in c['theorems']),c['note'].replace('|','/') or 'as stated'))
f=os.path.join(root,'DESIGN.md'); s=open(f).read()
a,b='<!-- BEGIN TABLE -->','<!-- END TABLE -->'
i=s.index(a)+len(a); j=s.index(b)
open(f,'w').write(s[:i]+'\n'+'\n'.join(rows)+'\n'+s[j:])

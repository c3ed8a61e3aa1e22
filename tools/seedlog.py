#!/usr/bin/env python3
"""Collects the results of the mutation runs (/tmp/mut/out*.jsonl) in seeded/LOG.jsonl.

A run edits one definition of the model in a scratch copy and rebuilds.  `failed` lists the declarations
that no longer compile; when they are lemmas, the theorems that use them fail with them."""
import json, glob, os
T = {('Cast','wrong width'):['C51_int64','C51_int16'],
     ('Validity','--check ignored'):[],
     ('Options','dec not recognised'):['C54_sorting'],
     ('Options','known facets accepted for vertex enumeration'):['C59_option'],
     ('Options','-h alone'):['C56_first'],
     ('Assemble','rays dropped'):['C57_vertices','C57_hull'],
     ('Assemble','vertices before rays'):['C57_vertices','C57_hull'],
     ('InputSections','names in reverse order'):['C57_vertices'],
     ('InputSections','every other line skipped'):['C57_vertices','C57_inequalities'],
     ('InputSections','vertices stored as rays'):['C57_vertices','C57_hull']}
N = {('Validity','--check ignored'):'the definition was a second, unused model of the option; removed from the model'}
extra = os.path.join(os.path.dirname(__file__), 'tightened.json')
if os.path.exists(extra):
    for k, v in json.load(open(extra)).items():
        a, b = k.split('|')
        T[(a, b)] = v
out = open(os.path.join(os.path.dirname(__file__), '..', 'seeded', 'LOG.jsonl'), 'w')
def key(p): return int(''.join(c for c in os.path.basename(p) if c.isdigit()))
for p in sorted(glob.glob('/tmp/mut/out*.jsonl'), key=key):
    for l in open(p):
        d = json.loads(l)
        k = (d['file'], d['edit'])
        failed = [{'file': f, 'declarations': t} for f, t in d['fails'].items()]
        e = {'round': key(p), 'definition': f"Verif/Model/{d['file']}.lean: {d['defn']}", 'edit': d['edit'],
             'claim': d['claim'], 'result': 'rejected' if d['rc'] else 'survived', 'theorems_failed': failed,
             'theorems_tightened': T.get(k, []) if d['rc'] == 0 else []}
        if d['rc'] == 0 and k in N: e['note'] = N[k]
        out.write(json.dumps(e) + '\n')

#!/usr/bin/env python3
"""Mutation tests: apply one edit to a scratch copy of the model, rebuild, list what fails.

usage: mutate.py edits.json   -- a list of {"id","file","old","new","definition","edit","claim"}
Each result is appended to /verif/seeded/LOG.jsonl. Works in /tmp/mut/lean (a copy of /verif/lean).
A failing lemma is mapped to the manifest theorems whose proofs use it (in the unmodified development)."""
import json, os, re, subprocess, sys, shutil, bisect
SRC, DST, LOG = os.environ.get('MUT_SRC', '/verif/lean'), os.environ.get('MUT_DST', '/tmp/mut/lean'), '/verif/seeded/LOG.jsonl'
DEPS = '/tmp/mut/deps.json'
def sh(c, **k): return subprocess.run(c, shell=True, capture_output=True, text=True, **k)
def deps():
    names = [t for c in json.load(open('/verif/MANIFEST.json'))['claims'] for t in c['theorems']]
    src = '''import Verif
open Lean
partial def go (env : Environment) (n : Name) : StateM NameSet Unit := do
  if (← get).contains n then return
  modify (·.insert n)
  match env.find? n with
  | none => return
  | some ci =>
    let used := ci.type.getUsedConstants ++ ((ci.value? (allowOpaque := true)).map (·.getUsedConstants)).getD #[]
    for m in used do
      if (`Dbml).isPrefixOf m then go env m
run_cmd do
  let env ← getEnv
  for n in [%s] do
    let (_, s) := (go env n).run {}
    IO.println s!"{n}|{String.intercalate " " (s.toList.map toString)}"
''' % ', '.join('``' + n for n in names)
    open('/tmp/mut/D.lean', 'w').write('set_option maxHeartbeats 0\n'.join(['', '']) + src if False else src)
    r = sh('lake env lean /tmp/mut/D.lean', cwd=SRC)
    out = {}
    for l in r.stdout.splitlines():
        if '|' in l:
            a, b = l.split('|', 1); out[a] = b.split()
    if not out: print(r.stdout[:2000], r.stderr[:2000]); sys.exit(1)
    return out
DECL = re.compile(r'^\s*(?:@\[[^\]]*\]\s*)*(?:private |protected |noncomputable )*(theorem|lemma|def|instance|example|abbrev|inductive|structure)\s*([^\s:({\[]*)')
def decl_at(path, line):
    name = '?'
    for i, l in enumerate(open(path).read().split('\n')[:line]):
        m = DECL.match(l)
        if m: name = m.group(2) or m.group(1)
    return name
def main():
    edits = json.load(open(sys.argv[1]))
    if not os.path.exists(DST): sh(f'mkdir -p /tmp/mut && cp -r {SRC} {DST}')
    dep = deps()
    users = {}
    for t, us in dep.items():
        for u in us: users.setdefault(u.split('.')[-1], set()).add(t.split('.')[-1])
    for e in edits:
        sh(f'rsync -a --delete --exclude .lake {SRC}/ {DST}/') if shutil.which('rsync') else sh(f'rm -rf {DST}/Verif {DST}/Verif.lean && cp -r {SRC}/Verif {SRC}/Verif.lean {DST}/')
        p = f"{DST}/Verif/{e['file']}"
        s = open(p).read()
        if s.count(e['old']) != 1:
            print('BAD EDIT', e['id'], s.count(e['old'])); continue
        open(p, 'w').write(s.replace(e['old'], e['new']))
        r = sh('lake build 2>&1', cwd=DST)
        fails = []
        for m in re.finditer(r'error: (Verif/[\w/]+\.lean):(\d+):\d+', r.stdout):
            n = decl_at(f'{DST}/{m.group(1)}', int(m.group(2)))
            k = f"{m.group(1)[6:-5]}:{n}"
            if k not in fails: fails.append(k)
        aff = set()
        for k in fails:
            n = k.split(':')[1].split('.')[-1]
            aff |= users.get(n, set())
            if re.match(r'C\d\d_', n): aff.add(n)
        rec = {'id': e['id'], 'definition': e['definition'], 'edit': e['edit'], 'claim_broken': e['claim'],
               'failed_lemmas': fails, 'theorems_failed': sorted(aff), 'theorems_tightened': e.get('tightened', []),
               'outcome': 'caught' if fails else 'SURVIVED'}
        if r.returncode and not fails: rec['outcome'] = 'build error: ' + r.stdout[-300:]
        if any(k.startswith('Model/') for k in fails):
            print(e['id'], 'INVALID', fails[:3], flush=True); continue
        open(LOG, 'a').write(json.dumps(rec) + '\n')
        print(e['id'], rec['outcome'], fails[:4], len(aff), flush=True)
main()

#!/usr/bin/env python3
"""Mutation testing of the theorems.

usage: mutate.py mutations.json [--log]

Each mutation: {"area": "NavPath" or ["NavPath", "NavIndex"], "definition": ..., "file": "NavPath/Model.lean",
"old": ..., "new": ..., "claim": ...}.  The files of the area(s) are joined into one file in a scratch directory
outside /verif, the edit is applied, and Lean is run on the result.  A property theorem counts as failed if it depends on
a proof that no longer goes through (it then depends on sorryAx) or does not elaborate.
"""
import json, re, os, shutil, sys, subprocess, tempfile
from concurrent.futures import ThreadPoolExecutor
root = os.path.dirname(os.path.dirname(os.path.abspath(__file__)))
# work on a snapshot, so that the sources may be edited while the mutants are checked
snap = tempfile.mkdtemp(prefix='mutsnap_', dir='/tmp')
lean = snap + '/lean'
shutil.copytree(root + '/lean', lean)

def closure(files):
    """files of the areas, in import order"""
    seen, order = set(), []
    def go(mod):
        if mod in seen: return
        seen.add(mod)
        path = lean + '/' + mod.replace('.', '/') + '.lean'
        for l in open(path):
            m = re.match(r'import (Verif\.\S+)', l)
            if m and any(m.group(1).startswith('Verif.' + a + '.') for a in files): go(m.group(1))
        order.append(mod)
    for a in files:
        for f in sorted(os.listdir(lean + '/Verif/' + a)):
            if f.endswith('.lean'): go('Verif.%s.%s' % (a, f[:-5]))
    return order

def run(mu):
    areas = mu['area'] if isinstance(mu['area'], list) else [mu['area']]
    imports, body, thms = [], [], []
    for mod in closure(areas):
        path = lean + '/' + mod.replace('.', '/') + '.lean'
        src = open(path).read()
        if mu.get('old') is not None and mod == 'Verif.' + mu['file'][:-5].replace('/', '.'):
            if src.count(mu['old']) != mu.get('count', 1):
                return mu, 'BAD PATTERN (%d occurrences)' % src.count(mu['old']), [], []
            src = src.replace(mu['old'], mu['new'])
        ns = []
        for l in src.split('\n'):
            m = re.match(r'namespace (\S+)', l)
            if m: ns.append(m.group(1))
            m = re.match(r'end (\S+)', l)
            if m and ns and ns[-1] == m.group(1): ns.pop()
            m = re.match(r'theorem (C\d\d+_\S+)', l)
            if m: thms.append('.'.join(ns + [m.group(1)]))
            m = re.match(r'import (\S+)', l)
            if m:
                if not any(m.group(1).startswith('Verif.' + a + '.') for a in areas): imports.append(m.group(1))
            else: body.append(l)
    text = '\n'.join('import ' + i for i in dict.fromkeys(imports)) + '\n' + '\n'.join(body) + '\n'
    for t in thms: text += '#print axioms %s\n' % t
    d = tempfile.mkdtemp(prefix='mut_', dir='/tmp')
    f = d + '/M.lean'
    open(f, 'w').write(text)
    r = subprocess.run(['lake', 'env', 'lean', f], cwd=lean, capture_output=True, text=True, timeout=3000)
    out = r.stdout + r.stderr
    shutil.rmtree(d)
    failed = []
    flat = re.sub(r'\s+', ' ', out)
    for t in thms:
        m = re.search(r"'%s' (does not depend on any axioms|depends on axioms: \[([^\]]*)\])" % re.escape(t), flat)
        if not m or (m.group(2) and 'sorryAx' in m.group(2)): failed.append(t)
    lines = text.split('\n')
    broken = []
    for m in re.finditer(r'M\.lean:(\d+):\d+: error', out):
        i = int(m.group(1)) - 1
        while i >= 0 and not re.match(r'(theorem|lemma|example|(noncomputable )?def|instance|inductive|structure)\b', lines[i]): i -= 1
        nm = lines[i].split('(')[0].split('{')[0].split(':')[0].strip() if i >= 0 else '?'
        if nm not in broken: broken.append(nm)
    return mu, 'ok', failed, broken

muts = json.load(open(sys.argv[1]))
# the unchanged files must check, otherwise the failures below mean nothing
for area in {json.dumps(mu['area']) for mu in muts}:
    _, _, failed, broken = run({'area': json.loads(area)})
    print('baseline', area, 'ok' if not failed and not broken else ('BAD BASELINE', failed, broken))
    sys.stdout.flush()
    if failed or broken: sys.exit(1)
with ThreadPoolExecutor(int(os.environ.get('JOBS', '3'))) as ex:
    for mu, st, failed, broken in ex.map(run, muts):
        print('==', mu['definition'], '|', mu.get('edit', mu['old'] + ' -> ' + mu['new']), '|', st)
        print('   broken:', broken[:12])
        print('   failed property theorems:', failed if failed else 'NONE (survived)')
        sys.stdout.flush()
        if '--log' in sys.argv and st == 'ok':
            os.makedirs(root + '/seeded', exist_ok=True)
            with open(root + '/seeded/LOG.jsonl', 'a') as o:
                o.write(json.dumps({'definition': mu['definition'], 'edit': mu.get('edit', mu['old'] + '  ->  ' + mu['new']),
                    'claim': mu['claim'], 'failed': failed, 'tightened': mu.get('tightened', [])}, ensure_ascii=False) + '\n')
shutil.rmtree(snap)

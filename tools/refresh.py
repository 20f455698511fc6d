"""Regenerate Verif.lean, MANIFEST.json, AXIOMS.txt and the state table of DESIGN.md.
Run after `lake build` of the modules; needs the compiled project for `#print axioms`."""
import glob, json, os, re, subprocess
V = os.path.dirname(os.path.dirname(os.path.abspath(__file__)))
mods = sorted(p[len(V) + 6:-5].replace('/', '.') for p in glob.glob(V + '/lean/Verif/**/*.lean', recursive=True))
open(V + '/lean/Verif.lean', 'w').write(''.join(f'import {m}\n' for m in mods))
subprocess.check_call(['lake', 'build'], cwd=V + '/lean', stdout=subprocess.DEVNULL)
subprocess.check_call(['python3', V + '/tools/manifest.py'])
man = json.load(open(V + '/MANIFEST.json'))
names = [t for c in man['claims'] for t in c['theorems']]
src = 'import Verif\n' + ''.join(f'#print axioms {n}\n' for n in names)
open('/tmp/axioms.lean', 'w').write(src)
out = subprocess.check_output(['lake', 'env', 'lean', '/tmp/axioms.lean'], cwd=V + '/lean', text=True)
out = re.sub(r',\n\s*', ', ', out)
groups = {}
for l in out.splitlines():
    m = re.match(r"'(\S+)' depends on axioms: \[(.*)\]", l)
    if m:
        groups.setdefault(', '.join(sorted(m.group(2).split(', '))), []).append(m.group(1))
        continue
    m = re.match(r"'(\S+)' does not depend on any axioms", l)
    groups.setdefault('none', []).append(m.group(1))
with open(V + '/AXIOMS.txt', 'w') as f:
    f.write('Axioms of the theorems in MANIFEST.json, as printed by `#print axioms`.\n')
    for k in sorted(groups, key=lambda k: -len(groups[k])):
        f.write(f'\n## {k} ({len(groups[k])} theorems)\n' + ''.join(f'{n}\n' for n in groups[k]))
assert sum(map(len, groups.values())) == len(names)
status = {c['property']: c['status'] for c in man['claims']}
rows = ''.join(f"| {d['id']} | {d['title']} | {status[d['id']]} |\n"
               for d in map(json.loads, open(V + '/properties.jsonl')))
p = V + '/DESIGN.md'
s = open(p).read()
i = s.index('| C01 |', s.index('## 7. State'))
j = s.index('\n\n', i)
open(p, 'w').write(s[:i] + rows.rstrip('\n') + s[j:])
print(len(names), {k: len(v) for k, v in groups.items()})

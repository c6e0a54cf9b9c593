#!/usr/bin/env python3
"""Seed wrong programs into a scratch copy of the model and rebuild.
usage: mutate.py mutations.json [--log]
mutations.json: list of {file, old, new, definition, edit, claim, targets?}; file relative to lean/.
Prints the theorems that no longer check; with --log appends to seeded/LOG.jsonl."""
import json, sys, os, re, subprocess, shutil
root = os.path.abspath(os.path.join(os.path.dirname(__file__), '..'))
scratch = '/tmp/scratch'
os.makedirs(scratch, exist_ok=True)
subprocess.run(['rsync', '-a', '--delete', root + '/lean/', scratch + '/lean/'], check=False) if shutil.which('rsync') else \
    (shutil.rmtree(scratch + '/lean', ignore_errors=True), shutil.copytree(root + '/lean', scratch + '/lean', symlinks=True))
def owner(path, line):
    name = None
    for i, l in enumerate(open(path), 1):
        m = re.match(r'\s*(?:private |protected |@\[.*\] )*(theorem|lemma|def|example|instance|abbrev|inductive|structure)\b\s*([^\s:({\[]*)', l)
        if m and not l.startswith(' '):
            name = m.group(2) if m.group(1) != 'example' else 'example@%d' % i
        if i >= line: break
    return name
def build():
    r = subprocess.run(['lake', 'build'], cwd=scratch + '/lean', stdout=subprocess.PIPE, stderr=subprocess.STDOUT, text=True)
    fails = []
    for m in re.finditer(r'^error: (Verif/\S+?\.lean):(\d+):', r.stdout, re.M):
        o = owner(scratch + '/lean/' + m.group(1), int(m.group(2)))
        k = m.group(1)[6:-5].replace('/', '.') + ':' + str(o)
        if k not in fails: fails.append(k)
    return r.returncode, fails, r.stdout
muts = json.load(open(sys.argv[1]))
log = '--log' in sys.argv
for mu in muts:
    p = scratch + '/lean/' + mu['file']
    s = open(p).read()
    if s.count(mu['old']) < 1:
        print('!! not found', mu['definition'], mu['old']); continue
    open(p, 'w').write(s.replace(mu['old'], mu['new'], 1))
    rc, fails, out = build()
    open(p, 'w').write(s)
    print(mu['definition'], '|', mu['edit'], '|', 'SURVIVED' if rc == 0 else fails, flush=True)
    if log:
        with open(root + '/seeded/LOG.jsonl', 'a') as f:
            f.write(json.dumps({'definition': mu['definition'], 'edit': mu['edit'], 'claim': mu['claim'],
                'failed': fails, 'tightened': mu.get('tightened', [])}) + '\n')

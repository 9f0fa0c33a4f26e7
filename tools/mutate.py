#!/usr/bin/env python3
"""Mutation tester: mutate.py MUTATIONS.json OUT.jsonl
Each mutation: {"def","file" (under Verif/),"old","new","claim"}; builds in a scratch copy /tmp/mut/lean."""
import json, re, shutil, subprocess, sys, os
SRC = '/verif/lean'; DST = '/tmp/mut/lean'
def sync():
    os.makedirs('/tmp/mut', exist_ok=True)
    subprocess.run(['rsync', '-a', '--delete', SRC + '/', DST + '/'] if shutil.which('rsync')
                   else ['bash', '-c', f'rm -rf {DST}; cp -a {SRC} {DST}'], check=True)
def decl_at(path, line):
    ls = open(path).read().split('\n')[:line]
    for l in reversed(ls):
        m = re.match(r'(?:@\[[^\]]*\]\s*)?(?:private |noncomputable |protected )*(theorem|lemma|def|example|instance|abbrev)\b\s*([^\s:({\[]*)', l)
        if m: return (m.group(2) or m.group(1))
    return '?'
def main():
    muts = json.load(open(sys.argv[1])); out = open(sys.argv[2], 'a')
    sync()
    for m in muts:
        p = f'{DST}/Verif/{m["file"]}'
        orig = open(p).read()
        if orig.count(m['old']) < 1:
            print('NOT FOUND', m['def'], m['old']); continue
        n = m.get('count', 1)
        open(p, 'w').write(orig.replace(m['old'], m['new'], n) if 'nth' not in m else
                           m['new'].join([m['old'].join(orig.split(m['old'])[:m['nth']+1]), m['old'].join(orig.split(m['old'])[m['nth']+1:])]))
        r = subprocess.run(['lake', 'build', 'Verif'], cwd=DST, capture_output=True, text=True)
        txt = r.stdout + r.stderr
        failed = []
        for mm in re.finditer(r'error: (Verif/\S+?\.lean):(\d+):\d+: (.*)', txt):
            d = decl_at(f'{DST}/{mm.group(1)}', int(mm.group(2)))
            e = f'{mm.group(1)[6:-5]}:{d}'
            if e not in failed: failed.append(e)
        m2 = dict(m); m2['failed'] = failed; m2['ok'] = (r.returncode == 0)
        out.write(json.dumps(m2) + '\n'); out.flush()
        print(m['def'], '->', 'STILL PROVES' if r.returncode == 0 else failed, flush=True)
        open(p, 'w').write(orig)
main()

#!/usr/bin/env python3
"""Check that citations in the Lean sources point into /repo, and that C function names
mentioned directly before a citation are present in the cited lines."""
import re,os,sys,glob
bad=0
for f in sorted(glob.glob('/verif/lean/Verif/**/*.lean',recursive=True)):
    txt=open(f).read()
    for doc in re.finditer(r'/--(.*?)-/',txt,re.S):
        d=doc.group(1)
        last=None
        for m in re.finditer(r'`((?:src|[\w/]*)[\w./]*\.[chl]?)?:([0-9,\-]+)`',d):
            path=m.group(1) or last
            last=path
            full='/repo/'+path if path else None
            line=txt[:doc.start()].count('\n')+1
            if not full or not os.path.exists(full):
                print(f"{f}:{line}: no file {path}"); bad+=1; continue
            lines=open(full,errors='replace').read().split('\n')
            seg=''
            for r in m.group(2).split(','):
                a,b=(r.split('-')+[r])[:2] if '-' in r else (r,r)
                a,b=int(a),int(b)
                if b>len(lines) or a>b: print(f"{f}:{line}: range {r} of {path}"); bad+=1
                seg+='\n'.join(lines[max(0,a-2):b+1])+'\n'
            pre=d[:m.start()]
            fn=re.search(r'`([A-Za-z_][A-Za-z_0-9]*)`[^`]{0,12}$',pre)
            if fn and fn.group(1) not in seg:
                print(f"{f}:{line}: {fn.group(1)} not in {path}:{m.group(2)}"); bad+=1
print("problems:",bad)

import re,glob,collections
d=collections.defaultdict(list)
for f in glob.glob('/verif/lean/Verif/**/*.lean',recursive=True):
    ns=[]
    for line in open(f):
        m=re.match(r'namespace (\S+)',line)
        if m: ns.append(m[1])
        m=re.match(r'end (\S+)',line)
        if m and ns and ns[-1]==m[1]: ns.pop()
        if line.startswith('private'): continue
        m=re.match(r'(?:@\[[^\]]*\]\s*)?(?:private |protected |noncomputable )*(theorem|lemma|def|inductive|structure|abbrev)\s+(\S+)',line)
        if m: d['.'.join(ns+[m[2]])].append(f)
for k,v in d.items():
    if len(v)>1: print(k,v)

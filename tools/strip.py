import sys,re
# print file with block comments removed, keeping line numbers (every nonblank line prefixed)
for f in sys.argv[1:]:
    t=open(f,errors='replace').read()
    t=re.sub(r'/\*.*?\*/',lambda m:'\n'*m.group(0).count('\n'),t,flags=re.S)
    print('=====',f)
    for i,l in enumerate(t.split('\n'),1):
        if not l.strip() or l.strip() in('//','// ') or re.match(r'\s*// -+$',l) or 'SPDX' in l or l.startswith('# include') or re.match(r'\s*// (BEGIN|END)_',l): continue
        l=re.sub(r'^( +)',lambda m:' '*(len(m.group(1))//2),l)
        print(f'{i}:{l.rstrip()}')

import re,collections
R64="rax rcx rdx rbx rsp rbp rsi rdi r8 r9 r10 r11 r12 r13 r14 r15".split()
R32="eax ecx edx ebx esp ebp esi edi".split()+[f"r{i}d" for i in range(8,16)]
R16="ax cx dx bx sp bp si di".split()+[f"r{i}w" for i in range(8,16)]
reg={}
for w,l in((64,R64),(32,R32),(16,R16)):
    for i,n in enumerate(l): reg[n]=(w,i)
def num(s):
    s=s.strip(); neg=s.startswith('-'); s=s.lstrip('+-')
    v=int(s,16); return -v if neg else v
def sgn(v,k): 
    v&=(1<<k)-1
    return v-(1<<k) if v>>(k-1) else v
def mem(s):
    s=re.sub(r'^(WORD|DWORD|QWORD) PTR ','',s)
    if not s.startswith('['):
        m=re.match(r'^ds:(0x[0-9a-f]+)$',s)
        return None,('sib','-','-',sgn(int(m.group(1),16),64)) if m else None
    s=s[1:s.index(']')]
    parts=re.findall(r'[+-]?[^+-]+',s)
    b='-';i='-';d=0
    for p in parts:
        q=p.lstrip('+')
        if '*' in q:
            r,k=q.split('*')
            if r=='riz': continue
            i=f"{reg[r][1]}*{k}"
        elif q=='rip': b='rip'
        elif q in reg: b=reg[q][1]
        else: d+=num(q)
    d=sgn(d,64)
    if b=='rip': return None,('rip',d)
    return None,('sib',b,i,d)
dis={}
cur=None
for l in open('recs.dis'):
    m=re.match(r'^[0-9a-f]+ <L(\d+)>:',l)
    if m: cur=int(m.group(1)); dis[cur]=[]; continue
    m=re.match(r'^\s*[0-9a-f]+:\t([0-9a-f ]+)\t?(.*)$',l.rstrip('\n'))
    if m and cur is not None: dis[cur].append((len(m.group(1).split()),m.group(2).strip()))
bad=collections.Counter(); n=0; ex=collections.defaultdict(list); okc=collections.Counter()
for k,(h,l) in enumerate(zip(open('recs.hex'),open('recs.lean.txt'))):
    ln,t=dis[k][0]
    # continuation lines with no text
    j=1
    while j<len(dis[k]) and dis[k][j][1]=='' : ln+=dis[k][j][0]; j+=1
    t=re.sub(r'\s*#.*','',t); t=re.sub(r'\s*<.*','',t)
    toks=t.split()
    while toks and (toks[0].startswith('rex') or toks[0]=='data16'): toks=toks[1:]
    t=' '.join(toks)
    op,_,args=t.partition(' ')
    a=[x.strip() for x in args.split(',')] if args else []
    try:
        if op in('mov','movabs','lea'):
            d,s=a
            if op=='lea':
                w,i=reg[d]; r=f"lea {w} {i} "+' '.join(map(str,mem(s)[1]))
            elif d in reg and s in reg: r=f"movrr {reg[d][0]} {reg[d][1]} {reg[s][1]}"
            elif d in reg and s.startswith('0x'): r=f"movri {reg[d][0]} {reg[d][1]} {int(s,16)}"
            elif d in reg: r=f"movrm {reg[d][0]} {reg[d][1]} "+' '.join(map(str,mem(s)[1]))
            else: r=f"movmr {reg[s][0]} "+' '.join(map(str,mem(d)[1]))+f" {reg[s][1]}"
        elif op in('push','pushw','pop'):
            if a[0] in reg: r=f"{'push' if op!='pop' else 'pop'}r {reg[a[0]][0]} {reg[a[0]][1]}"
            else:
                w=16 if op=='pushw' else 64
                r=f"pushi {w} {sgn(int(a[0],16),w if w==64 else 16)}"
        elif op in ('ret','syscall'): r=op
        else: r='?'+t
    except Exception as e: r='!!'+t+repr(e)
    want=f"{ln} {r}"; got=l.strip()
    n+=1
    if want==got or (got=='none' and ('(bad)' in t or 'retw' in t)): okc[r.split()[0]]+=1
    else: 
        kk=(r.split()[0], got.split()[1] if ' ' in got else got); bad[kk]+=1; ex[kk].append((h.strip(),want,got))
print(n,okc,bad)
for kk in ex: print(kk,ex[kk][:4])

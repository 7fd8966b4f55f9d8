import random,sys
random.seed(int(sys.argv[1])); N=int(sys.argv[2])
ops=[0x89,0x8b,0x8d]*6+list(range(0xb8,0xc0))+list(range(0x50,0x60))+[0x6a,0x68]*3+[0xc3]
out=[]
for _ in range(N):
    b=[]
    if random.random()<.3: b.append(0x66)
    if random.random()<.7: b.append(0x40+random.randrange(16))
    o=random.choice(ops+[0x0f])
    b.append(o)
    if o==0x0f: b.append(5)
    tail=[random.choice([0,1,5,0x24,0x25,0x45,0x80,0x7f,0xff,random.randrange(256)]) if random.random()<.5 else random.randrange(256) for _ in range(13)]
    b+=tail
    out.append(bytes(b[:15]))
open('recs.hex','w').write(''.join(x.hex()+'\n' for x in out))
with open('recs.s','w') as f:
    for i,x in enumerate(out):
        f.write(f"L{i}: .byte "+','.join(str(v) for v in x)+"\n .fill 16,1,0x90\n")

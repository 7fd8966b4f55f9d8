import random,subprocess,sys,re
random.seed(int(sys.argv[1]));N=int(sys.argv[2])
R64="rax rcx rdx rbx rsp rbp rsi rdi r8 r9 r10 r11 r12 r13 r14 r15".split()
R32="eax ecx edx ebx esp ebp esi edi".split()+[f"r{i}d" for i in range(8,16)]
R16="ax cx dx bx sp bp si di".split()+[f"r{i}w" for i in range(8,16)]
RW={64:R64,32:R32,16:R16}
DATA=0x20000000
asm=[];regs=[]
def mem(rg):
    k=random.random()
    d=random.choice([0,random.randrange(-128,128),random.randrange(-500,500)])
    if k<.1:
        return None
    b=random.randrange(16)
    rg[b]=DATA+0x800+random.randrange(-200,200)
    if k<.5: return f"[{R64[b]}{d:+d}]" 
    i=random.choice([x for x in range(16) if x!=4])
    if i==b: return f"[{R64[b]}{d:+d}]"
    rg[i]=random.randrange(32)
    s=random.choice([1,2,4,8])
    if k<.9 : return f"[{R64[b]}+{R64[i]}*{s}{d:+d}]"
    return f"[{R64[i]}*{s}+{DATA+0x800+d}]"
for n in range(N):
    rg=[random.getrandbits(64) for _ in range(16)]
    rg[4]=DATA+0xc00+random.randrange(0,64)
    k=random.randrange(9); w=random.choice([16,32,64])
    if k==0: a=f"mov {random.choice(RW[w])},{random.choice(RW[w])}"
    elif k==1:
        v=random.getrandbits(w); a=("movabs " if w==64 else "mov ")+f"{random.choice(RW[w])},{v}"
    elif k in(2,3,4):
        m=mem(rg)
        if m is None:
            a=None
            t=DATA+0x800+random.randrange(-300,300)
            m=f"[rip+tgt{n}]"; asm.append(f".set tgt{n}, 0")  # placeholder
            asm.pop()
            m=None
        if m is None: m=f"[{DATA+0x800+random.randrange(-300,300)}]"
        r=random.choice(RW[w])
        a=f"mov {m},{r}" if k==2 else f"mov {r},{m}" if k==3 else f"lea {r},{m}"
    elif k==5: 
        a=f"push {random.choice(RW[random.choice([16,64])])}"
    elif k==6: a=f"pop {random.choice(RW[random.choice([16,64])])}"
    elif k==7: 
        a=random.choice([f"push {random.randrange(-128,128)}",f"push {random.randrange(-2**31,2**31)}",f"pushw {random.randrange(-2**15,2**15)}"])
    else: a="ret" if random.random()<.1 else f"mov {random.choice(R64)},[rip+{DATA+0x900-0x10000000+random.randrange(-64,64)}]"
    if a=="ret": rg[4]=DATA+0xc00
    asm.append(f"C{n}: {a}"); regs.append(rg)
open('t.s','w').write(".intel_syntax noprefix\n"+"\n".join(asm)+f"\nC{N}:\n")
subprocess.check_call(['as','t.s','-o','t.o'])
subprocess.check_call(['objcopy','-O','binary','-j','.text','t.o','t.bin'])
sy={}
for l in subprocess.check_output(['nm','t.o'],text=True).splitlines():
    a,_,s=l.split(); sy[s]=int(a,16)
B=open('t.bin','rb').read()
with open('t.in','w') as f:
    for n in range(N):
        f.write(B[sy[f'C{n}']:sy[f'C{n+1}']].hex()+' '+' '.join('%x'%x for x in regs[n])+'\n')

import random,sys
random.seed(7)
R64="rax rcx rdx rbx rsp rbp rsi rdi r8 r9 r10 r11 r12 r13 r14 r15".split()
R32="eax ecx edx ebx esp ebp esi edi".split()
R16="ax cx dx bx sp bp si di".split()
for n in range(300):
    nl=random.randrange(1,12); labs=[f"x{i}" for i in range(nl)]
    out=["section .text","global _main","_main:","  ret"]; pend=labs[:]; random.shuffle(pend)
    cur='t'; used=set()
    for _ in range(random.randrange(1,40)):
        k=random.random()
        if k<.15: cur=random.choice('td'); out.append("section ."+{'t':'text','d':'data'}[cur])
        elif k<.3 and pend:
            l=pend.pop()
            if random.random()<.4: out.insert(random.randrange(len(out)+1),f"global {l}")
            if cur=='d' and random.random()<.5: out.append(f"{l} db {random.randrange(256)}")
            else: out+= [f"{l}:"]
            used.add(l)
        elif cur=='t' and k<.8:
            out.append("  "+random.choice([f"mov {random.choice(R64)}, {random.choice(labs)}",f"mov {random.choice(R64)}, {random.getrandbits(63)}",
              f"mov {random.choice(R32)}, {random.choice(labs)}",f"mov {random.choice(R64)}, {random.choice(R64)}",f"mov {random.choice(R16)}, {random.getrandbits(16)}",
              f"push {random.choice(R64)}","syscall","ret",f"push {random.getrandbits(random.choice([7,31]))}"]))
        else:
            out.append("  "+random.choice([f'db "{random.choice(["hello","x","a b c"])}"',f"dw {random.getrandbits(16)}",f"dd {random.getrandbits(32)}",f"dq {random.getrandbits(63)}"]))
    out.append("section .data"); out.append("  db 1")
    for l in labs:
        if l not in used: out.append(f"{l}:")
    out.append("  db 7")
    open(f"ln/p{n}.s","w").write("\n".join(out)+"\n")

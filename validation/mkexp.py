from macho import parse
with open('ln/exp.txt','w') as f:
    for n in range(300):
        b=open(f'ln/p{n}.out','rb').read(); s,y=parse(b)
        d={x[1]:x for x in s}
        t=d['__text']; dd=d['__data']
        f.write(f"{n} {t[2]} {dd[2]} {b[t[4]:t[4]+t[3]].hex()} {b[dd[4]:dd[4]+dd[3]].hex()} "+' '.join(f"{q[0]}={q[4]}" for q in y if q[0]!='__mh_execute_header')+"\n")

from macho import parse
with open('lm/exp.txt', 'w') as f:
    for n in range(300):
        b = open(f'lm/p{n}.out', 'rb').read()
        s, y = parse(b)
        d = {x[1]: x for x in s}
        row = [str(n), open(f'lm/p{n}.n').read()]
        for k in ('__text', '__data', '__bss'):
            x = d.get(k)
            row.append(str(x[2]) if x else '0')
        for k in ('__text', '__data'):
            x = d.get(k)
            row.append('h' + (b[x[4]:x[4] + x[3]].hex() if x else ''))
        f.write(' '.join(row) + '\n')

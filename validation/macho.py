import struct,sys
def parse(b):
    magic,cpu,sub,ft,nc,sc,fl,_=struct.unpack_from('<8I',b,0)
    off=32; secs=[]; syms=[]
    for _ in range(nc):
        cmd,sz=struct.unpack_from('<2I',b,off)
        if cmd==0x19:
            ns=struct.unpack_from('<I',b,off+64)[0]
            for k in range(ns):
                o=off+72+80*k
                nm=b[o:o+16].split(b'\0')[0].decode(); sg=b[o+16:o+32].split(b'\0')[0].decode()
                addr,size,fo,al,ro,nr,f=struct.unpack_from('<QQIIIII',b,o+32)
                secs.append((sg,nm,addr,size,fo,al,ro,nr,f))
        if cmd==2:
            so,nn,sto,sts=struct.unpack_from('<4I',b,off+8)
            for k in range(nn):
                sx,t,se,de,v=struct.unpack_from('<IBBHQ',b,so+16*k)
                e=b.index(b'\0',sto+sx); syms.append((b[sto+sx:e].decode(),t,se,de,v))
        off+=sz
    return secs,syms
if __name__=='__main__':
    for f in sys.argv[1:]:
        s,y=parse(open(f,'rb').read()); print(f,*s,*y,sep='\n ')

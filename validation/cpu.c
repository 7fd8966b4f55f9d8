#define _GNU_SOURCE
#include <stdio.h>
#include <stdlib.h>
#include <string.h>
#include <stdint.h>
#include <signal.h>
#include <setjmp.h>
#include <sys/mman.h>
#define CODE 0x10000000UL
#define DATA 0x20000000UL
#define DLEN 4096
uint64_t in[16], out[16], host_rsp, target;
void stub(void); void go(void);
asm(".pushsection .text\n.globl go\ngo:\n"
"push %rbx\npush %rbp\npush %r12\npush %r13\npush %r14\npush %r15\n mov %rsp,host_rsp(%rip)\n"
"mov in+0(%rip),%rax\nmov in+8(%rip),%rcx\nmov in+16(%rip),%rdx\nmov in+24(%rip),%rbx\nmov in+40(%rip),%rbp\nmov in+48(%rip),%rsi\nmov in+56(%rip),%rdi\n"
"mov in+64(%rip),%r8\nmov in+72(%rip),%r9\nmov in+80(%rip),%r10\nmov in+88(%rip),%r11\nmov in+96(%rip),%r12\nmov in+104(%rip),%r13\nmov in+112(%rip),%r14\nmov in+120(%rip),%r15\n"
"mov in+32(%rip),%rsp\njmp *target(%rip)\n"
".globl stub\nstub:\n"
"mov %rax,out+0(%rip)\nmov %rcx,out+8(%rip)\nmov %rdx,out+16(%rip)\nmov %rbx,out+24(%rip)\nmov %rsp,out+32(%rip)\nmov %rbp,out+40(%rip)\nmov %rsi,out+48(%rip)\nmov %rdi,out+56(%rip)\n"
"mov %r8,out+64(%rip)\nmov %r9,out+72(%rip)\nmov %r10,out+80(%rip)\nmov %r11,out+88(%rip)\nmov %r12,out+96(%rip)\nmov %r13,out+104(%rip)\nmov %r14,out+112(%rip)\nmov %r15,out+120(%rip)\n"
"mov host_rsp(%rip),%rsp\npop %r15\npop %r14\npop %r13\npop %r12\npop %rbp\npop %rbx\nret\n.popsection\n");
sigjmp_buf jb;
void h(int s){ siglongjmp(jb,1);}
int main(void){
  uint8_t*code=mmap((void*)CODE,4096,7,MAP_PRIVATE|MAP_ANONYMOUS|MAP_FIXED,-1,0);
  uint8_t*data=mmap((void*)DATA,DLEN,3,MAP_PRIVATE|MAP_ANONYMOUS|MAP_FIXED,-1,0);
  fprintf(stderr,"%p %p\n",code,data);
  stack_t ss={.ss_sp=malloc(1<<16),.ss_size=1<<16}; sigaltstack(&ss,0);
  struct sigaction sa={.sa_handler=h,.sa_flags=SA_ONSTACK|SA_NODEFER}; sigaction(SIGSEGV,&sa,0);sigaction(SIGBUS,&sa,0);sigaction(SIGILL,&sa,0);sigaction(SIGTRAP,&sa,0);
  char line[4096];
  while(fgets(line,sizeof line,stdin)){
    char*p=strtok(line," \n"); int n=strlen(p)/2; 
    for(int i=0;i<n;i++){unsigned v;sscanf(p+2*i,"%2x",&v);code[i]=v;}
    code[n]=0xff;code[n+1]=0x25;memset(code+n+2,0,4);uint64_t a=(uint64_t)stub;memcpy(code+n+6,&a,8);
    for(int i=0;i<16;i++)in[i]=strtoull(strtok(0," \n"),0,16);
    uint8_t before[DLEN];
    for(int i=0;i<DLEN;i++) data[i]=(uint8_t)(((uint64_t)(DATA+i)*2654435761UL)>>13);
    if(n==1&&code[0]==0xc3){memcpy((void*)in[4],&a,8);}
    memcpy(before,data,DLEN);
    target=CODE;
    if(sigsetjmp(jb,1)){printf("fault\n");continue;}
    go();
    for(int i=0;i<16;i++)printf("%lx ",out[i]);
    for(int i=0;i<DLEN;i++)if(before[i]!=data[i])printf("%lx:%x ",DATA+i,data[i]);
    printf("\n");fflush(stdout);
  }
}

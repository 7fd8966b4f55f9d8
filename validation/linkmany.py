import subprocess, os
B = '/app/lean4-4.33.0/build/release/stage1/bin/ld.lld'
bad = 0
for n in range(300):
    k = int(open(f'lm/p{n}.n').read())
    fs = [f'lm/p{n}_{i}.o' for i in range(k)]
    r = subprocess.run([B, '-flavor', 'darwin', '-arch', 'x86_64', '-platform_version', 'macos', '10.15', '10.15',
                        '-pagezero_size', '0x1000', '-no_pie', '-e', '_main', '-o', f'lm/p{n}.out'] + fs,
                       capture_output=True, text=True)
    if r.returncode or r.stderr:
        bad += 1
        print(n, r.stderr[:400])
print('bad', bad)

"""Report citations `name` (path:lines) in the model whose lines do not mention the name, or do not exist."""
import re, glob, os, sys
repo='/repo'
src={}
def lines(p):
    if p not in src:
        f=os.path.join(repo,p)
        src[p]=open(f).read().split('\n') if os.path.isfile(f) else None
    return src[p]
bad=0
for f in sorted(glob.glob('/verif/lean/Verif/**/*.lean',recursive=True)):
    t=open(f).read()
    for m in re.finditer(r'([\w/]+\.go):(\d+)(?:-(\d+))?((?:, ?\d+(?:-\d+)?)*)',t):
        p=m.group(1); L=lines(p)
        ln=t[:m.start()].count('\n')+1
        if L is None: print(f'{f}:{ln}: no file {p}'); bad+=1; continue
        a=int(m.group(2)); b=int(m.group(3) or a)
        if b>len(L): print(f'{f}:{ln}: {p}:{a}-{b} beyond end {len(L)}'); bad+=1; continue
        pre=re.search(r'/--[^`]{0,12}`([\w.]+)`(?: and `[\w.]+`| of [^(]{0,40})? ?\($',t[max(0,m.start()-120):m.start()])
        if pre:
            name=pre.group(1).split('.')[-1]
            body='\n'.join(L[max(0,a-1):b])
            if not re.search(r'(func|type|var|const)?.*\b'+re.escape(name)+r'\b',body):
                print(f'{f}:{ln}: `{name}` not in {p}:{a}-{b}'); bad+=1
            else:
                # function: does the range start at its declaration and end at its brace?
                decl=[i for i,l in enumerate(L,1) if re.match(r'func (\([^)]*\) )?'+re.escape(name)+r'\(',l)]
                if decl and a not in decl and a-1 not in decl and not any(a<=d<=b for d in decl) :
                    print(f'{f}:{ln}: `{name}` {p}:{a}-{b}: declared at {decl}'); bad+=1
                elif decl:
                    for d in decl:
                        if a<=d<=b or a==d+1:
                            e=next(i for i in range(d,len(L)+1) if L[i-1].startswith('}'))
                            if abs(b-e)>2: print(f'{f}:{ln}: `{name}` {p}:{a}-{b}: really {d}-{e}'); bad+=1
                            break
print(bad,'suspicious')

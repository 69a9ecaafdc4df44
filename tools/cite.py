#!/usr/bin/env python3
"""Check (and with --fix repair) citations of the form  `Type::fn`, `src/...rs:a-b`  in the model's comments:
the cited range must be exactly the span of that function in /repo."""
import re,sys,glob
def spans(path):
    lines=open('/repo/'+path).read().split('\n')
    out=[];impl=''
    i=0
    while i<len(lines):
        L=lines[i]
        m=re.match(r'impl(<[^{]*?>)?\s+(?:[\w:<>,\s\']+?\s+for\s+)?(\w+)',L)
        if m and not L.startswith('//'): impl=m.group(2)
        m=re.match(r'\s*(?:pub(?:\(\w+\))?\s+)?(?:const\s+)?fn\s+(\w+)',L)
        if m:
            ind=len(L)-len(L.lstrip())
            if ind==0: impl=''
            j=i
            while '{' not in lines[j] and ';' not in lines[j]: j+=1
            if '{' in lines[j] and not (lines[j].count('{')==lines[j].count('}')):
                k=j+1
                while not (lines[k].startswith(' '*ind+'}') ): k+=1
            else: k=j
            out.append((impl,m.group(1),i+1,k+1))
        i+=1
    return out
cache={}
bad=0
for f in sorted(glob.glob('/verif/lean/Verif/Model/'+(sys.argv[1] if len(sys.argv)>1 and sys.argv[1][0]!="-" else "*")+'.lean')):
    s=open(f).read()
    def rep(m):
        global bad
        q,path,a,b=m.group(1),m.group(3),int(m.group(4)),int(m.group(5) or m.group(4))
        parts=q.split('::'); fn=parts[-1]; ty=parts[-2] if len(parts)>1 else None
        try:
            if path not in cache: cache[path]=spans(path)
        except FileNotFoundError:
            print(f,'NOFILE',path); bad+=1; return m.group(0)
        c=[x for x in cache[path] if x[1]==fn]
        if not c: return m.group(0)
        if any(x[2]<=a+1 and b<=x[3]+1 for x in c if (ty is None or x[0]==ty or len(c)==1)) and any(abs(x[2]-a)<=1 and abs(x[3]-b)<=1 for x in c): return m.group(0)
        if ty: 
            c2=[x for x in c if x[0]==ty]
            if c2: c=c2
        bad+=1
        print(f.split('/')[-1],q,f'{path}:{a}-{b}','->',[(x[0],x[2],x[3]) for x in c])
        if len(c)==1 and '--fix' in sys.argv:
            return f"`{q}`{m.group(2)}`{path}:{c[0][2]}-{c[0][3]}`"
        return m.group(0)
    s2=re.sub(r'`([\w:]+)`(,\s+)`(src/[\w/]+\.rs):(\d+)(?:-(\d+))?`',rep,s)
    if s2!=s: open(f,'w').write(s2)
print(bad,'mismatches')

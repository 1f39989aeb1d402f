import json,sys
def reg(cid,title,stmt,quant,why,anchors,design,scope=None,note=None,imp=None,finding=None):
    f='/verif/tools/gen_props.py'; s=open(f).read()
    i=s.index('if __name__')
    s=s[:i]+'p(%s,%s,\n  %s,\n  %s,\n  %s,\n  %s)\n\n'%tuple(json.dumps(x,ensure_ascii=False) for x in (cid,title,stmt,quant,why,anchors))+s[i:]
    open(f,'w').write(s)
    if note:
        n=json.load(open('/verif/tools/notes.json')); n[cid]={"note":note}
        json.dump(n,open('/verif/tools/notes.json','w'),indent=1)
    if imp:
        open('/verif/lean/Verif.lean','a').write("".join("import "+x+"\n" for x in imp))
    f='/verif/DESIGN.md'; s=open(f).read()
    prev="| C%02d |"%(int(cid[1:])-1)
    i=s.index(prev); j=s.index("\n",i)+1
    s=s[:j]+"| %s | %s |\n"%(cid,design)+s[j:]
    if scope:
        k="\nNot modelled:"
        i=s.index(k)
        s=s[:i].rstrip("\n")+"\n"+"".join("| %s |\n"%x for x in ([scope] if isinstance(scope,str) else scope))+s[i:]
    if finding:
        k="\n## 5."
        i=s.index(k)
        import re
        last=max(int(x) for x in re.findall(r"^(\d+)\. ",s[:i],re.M))
        for t in ([finding] if isinstance(finding,str) else finding):
            last+=1
            i=s.index(k)
            s=s[:i].rstrip("\n")+"\n%d. %s\n"%(last,t)+s[i:]
    open(f,'w').write(s)

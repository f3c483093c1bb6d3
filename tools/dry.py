import sys
def m(name,module,definition,old,new,claim,targets,count=1):
    s=open('/verif/lean/Verif/'+module.replace('.','/')+'.lean').read()
    if s.count(old)!=count: print(name,s.count(old))
for f in sys.argv[1:]: exec(open(f).read())

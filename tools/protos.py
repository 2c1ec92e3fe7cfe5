#!/usr/bin/env python3
"""Reads the generated code under /repo/bd-proto/src/protos and writes lean/Verif/Proto/Tables.lean (from the three functions of every
message) and lean/Verif/Proto/Schema.lean (from the embedded descriptors).  A line of the code that is not of a known form is an error.
Usage: protos.py [directory of the Lean files]"""
import re,os,sys,collections
ROOT='/repo/bd-proto/src/protos'
def body(t,i):
    # t[i]=='{' ; return end index (exclusive)
    d=0
    while True:
        c=t[i]
        if c=='{': d+=1
        elif c=='}':
            d-=1
            if d==0: return i+1
        i+=1
msgs=[]
for dp,_,fs in sorted(os.walk(ROOT)):
    for f in sorted(fs):
        if f=='mod.rs': continue
        p=os.path.join(dp,f); t=open(p).read()
        for m in re.finditer(r"impl ::protobuf::Message for ([A-Za-z0-9_]+) \{",t):
            e=body(t,m.end()-1); blk=t[m.start():e]
            d={}
            for fn in ['merge_from','compute_size','write_to_with_cached_sizes']:
                k=re.search(r"fn %s\([^{]*\{"%fn,blk); j=body(blk,k.end()-1); d[fn]=(blk[k.end():j-1], t[:m.start()+k.start()].count('\n')+1, t[:m.start()+j].count('\n')+1)
            ind=len(re.match(r" *",t[t.rfind('\n',0,m.start())+1:m.start()]).group(0)) if False else (m.start()-t.rfind('\n',0,m.start())-1)
            msgs.append(dict(file=os.path.relpath(p,'/repo'),name=m.group(1),pos=m.start(),ind=ind,**d))
def modules(t):
    out=[]
    for m in re.finditer(r"pub mod ([a-z_0-9]+) \{",t):
        out.append((m.group(1),m.start(),body(t,m.end()-1)))
    return out
FILES={}
for m in msgs:
    p=os.path.join('/repo',m['file'])
    if p not in FILES:
        t=open(p).read(); FILES[p]=(t,modules(t))
    t,mods=FILES[p]
    base=os.path.relpath(p,ROOT)[:-3].split('/')
    m['mod']=base+[n for n,a,b in mods if a<m['pos']<b]
    # struct
    st=None
    for k in re.finditer(r"pub struct %s \{"%m['name'],t):
        e=body(t,k.end()-1)
        if [n for n,a,b in mods if a<k.start()<b]==m['mod'][len(base):]: st=t[k.end():e-1]
    m['fields']={}
    for f,ty in re.findall(r"pub ([a-z_0-9A-Z]+): ([^\n]*),\n",st): m['fields'][f]=ty
    m['full']='::'.join(m['mod']+[m['name']])
def resolve(mod,ty):
    ty=ty.replace('::std::boxed::Box<','').rstrip('>') if ty.startswith('::std::boxed') else ty
    if ty.startswith('::'): return ty
    parts=ty.split('::'); cur=list(mod)
    while parts[0] in('super','self'):
        if parts[0]=='super': cur=cur[:-1]
        parts=parts[1:]
    return '::'.join(cur+parts)
def oneofs(m):
    t,mods=FILES[os.path.join('/repo',m['file'])]
    return t,mods
full={m['full']:m for m in msgs}
EXT={'::protobuf::well_known_types::timestamp::Timestamp':'Timestamp','::protobuf::well_known_types::duration::Duration':'Duration','::protobuf::well_known_types::any::Any':'Any'}
def find(mod,ty):
    r=resolve(mod,ty)
    if r in full: return r
    if r in EXT: return r
    parts=[x for x in ty.split('::') if x not in('super','self')]
    c=[k for k in full if k.split('::')[-len(parts):]==parts]
    if len(c)!=1:
        # uses: look up `use` lines? choose by file
        raise Exception(('unresolved',mod,ty,r,c))
    return c[0]
def strip(ty):
    for w in ['::protobuf::MessageField<','::std::vec::Vec<','::std::boxed::Box<','::std::option::Option<']:
        if ty.startswith(w): return strip(ty[len(w):-1])
    return ty
KR={'read_string':'str','read_tokio_chars':'str','read_bytes':'bytes','read_tokio_bytes':'bytes','read_int64':'i64','read_uint64':'u64','read_uint32':'u32','read_int32':'i32','read_bool':'bool','read_double':'f64','read_float':'f32','read_enum_or_unknown':'enum','read_message':'msg'}
KW={'write_string':'str','write_bytes':'bytes','write_int64':'i64','write_uint64':'u64','write_uint32':'u32','write_int32':'i32','write_bool':'bool','write_double':'f64','write_float':'f32','write_enum':'enum'}
KS={'string_size':'str','bytes_size':'bytes','int64_size':'i64','uint64_size':'u64','uint32_size':'u32','int32_size':'i32'}
WT={'str':2,'bytes':2,'msg':2,'f64':1,'f32':5}
def enumval(m,en,var):
    t,mods=FILES[os.path.join('/repo',m['file'])]
    # find 'pub enum <last of en>' containing var
    last=en.split('::')[-1]
    for k in re.finditer(r"pub enum %s \{"%last,t):
        b=t[k.end():body(t,k.end()-1)]
        g=re.search(r"\b%s = (-?\d+)"%var,b)
        if g: return int(g.group(1))
    raise Exception((m['full'],en,var))
def variants(m,en):
    t,mods=FILES[os.path.join('/repo',m['file'])]
    parts=en.split('::'); 
    for k in re.finditer(r"pub enum %s \{"%parts[-1],t):
        enc=[n for n,a,b in mods if a<k.start()<b]
        if enc[-1:]==parts[-2:-1]:
            b=t[k.end():body(t,k.end()-1)]
            return {v:(ty,m['mod'][:len(m['mod'])] , os.path.relpath(os.path.join('/repo',m['file']),ROOT)[:-3].split('/')+enc) for v,ty in re.findall(r"\n\s+([A-Za-z_0-9]+)\((.*)\),",b)}
    raise Exception(('oneof',m['full'],en))
def toks(s):
    return [l.strip() for l in s.split('\n') if l.strip()]
entries=[]
def parse(m):
    M,S,W=m['merge_from'][0],m['compute_size'][0],m['write_to_with_cached_sizes'][0]
    arms={} # field key -> dict
    order=[]
    # merge arms
    i=M.index('match tag {')+len('match tag {')
    inner=M[i:]
    pos=0
    while True:
        k=re.compile(r"\s*(\d+|tag) => \{").match(inner,pos)
        e=body(inner,k.end()-1); b=inner[k.end():e-1]; pos=e+1
        if k.group(1)=='tag':
            assert 'read_unknown_or_skip_group(tag, is, self.special_fields.mut_unknown_fields())' in b; break
        tag=int(k.group(1)); ls=toks(b); b1=' '.join(ls)
        def put(key,**d):
            if key in arms: 
                arms[key].setdefault('alt',[]).append((tag,d)); return
            arms[key]=dict(tag=tag,**d); 
        g=re.fullmatch(r"self\.(\w+) = is\.(read_\w+)\(\)\?;",b1)
        if g: put(g.group(1),rk=KR[g.group(2)],label='plain'); continue
        g=re.fullmatch(r"self\.(\w+) = ::std::option::Option::Some\(is\.(read_\w+)\(\)\?\);",b1)
        if g: put(g.group(1),rk=KR[g.group(2)],label='opt'); continue
        g=re.fullmatch(r"self\.(\w+) = ::std::option::Option::Some\(([\w:]+)::(\w+)\((?:::std::boxed::Box::new\()?is\.(read_\w+)\(\)\?\)?\)\);",b1)
        if g: put((g.group(1),g.group(3)),rk=KR[g.group(4)],label='one',enum=g.group(2)); continue
        g=re.fullmatch(r"self\.(\w+)\.push\(is\.(read_\w+)\(\)\?\);",b1)
        if g: put(g.group(1),rk=KR[g.group(2)],label='rep'); continue
        g=re.fullmatch(r"::protobuf::rt::read_singular_message_into_field\(is, &mut self\.(\w+)\)\?;",b1)
        if g: put(g.group(1),rk='msg',label='opt'); continue
        g=re.fullmatch(r"(?:is\.read_repeated_packed_(\w+)_into\(&mut self\.(\w+)\)\?;|::protobuf::rt::read_repeated_packed_(enum)_or_unknown_into\(is, &mut self\.(\w+)\)\?)",b1)
        if g: put(g.group(2) or g.group(4),rk={'double':'f64','enum':'enum'}[g.group(1) or g.group(3)],label='packed'); continue
        g=re.search(r"let len = is.read_raw_varint32.*push_limit.*match tag \{ (\d+) => key = is.(read_\w+)\(\)\?, (\d+) => value = is.(read_\w+)\(\)\?, _ => ::protobuf::rt::skip_field_for_tag\(tag, is\)\?, \}; \} is.pop_limit\(old_limit\); self.(\w+).insert\(key, value\);",b1)
        if g: put(g.group(5),rk='msg',label='map',entry=[(int(g.group(1)),KR[g.group(2)]),(int(g.group(3)),KR[g.group(4)])]); continue
        raise Exception((m['full'],b1))
    # write
    order=[]
    ls=toks(W); j=0
    assert ls[-1]=='::std::result::Result::Ok(())' and ls[-2]=='os.write_unknown_fields(self.special_fields.unknown_fields())?;'
    ls=ls[:-2]
    wr={}
    def wcall(l):
        g=re.fullmatch(r"os\.(write_\w+)\((\d+), (.*)\)\?;",l)
        if g and g.group(1) in KW: return KW[g.group(1)],int(g.group(2)),g.group(3)
        g=re.fullmatch(r"::protobuf::rt::write_message_field_with_cached_size\((\d+), (v|&\*\*v), os\)\?;",l)
        if g: return 'msg',int(g.group(1)),g.group(2)
        return None
    while j<len(ls):
        l=ls[j]
        g=re.fullmatch(r"if (?:!self\.(\w+)\.is_empty\(\)|self\.(\w+) != (.*)) \{",l)
        if g:
            f=g.group(1) or g.group(2); k,n,a=wcall(ls[j+1]); assert f in a; assert ls[j+2]=='}'
            d=0
            c=g.group(3)
            if c and c.startswith('::protobuf::EnumOrUnknown::new('):
                e=c[len('::protobuf::EnumOrUnknown::new('):-1].split('::'); d=enumval(m,'::'.join(e[:-1]),e[-1])
            elif c: assert c in('0','0.','false'),c
            wr[f]=dict(w=('num',n),wk=k,cond='plain',dflt=d); order.append(f); j+=3; continue
        g=re.fullmatch(r"if let Some\(v\) = self\.(\w+)(\.as_ref\(\))? \{",l)
        if g:
            k,n,a=wcall(ls[j+1]); assert ls[j+2]=='}'
            wr[g.group(1)]=dict(w=('num',n),wk=k,cond='opt'); order.append(g.group(1)); j+=3; continue
        g=re.fullmatch(r"for v in &self\.(\w+) \{",l)
        if g:
            k,n,a=wcall(ls[j+1]); assert ls[j+2]=='};'
            wr[g.group(1)]=dict(w=('num',n),wk=k,cond='rep'); order.append(g.group(1)); j+=3; continue
        g=re.fullmatch(r"os\.write_repeated_packed_(double|enum_or_unknown)\((\d+), &self\.(\w+)\)\?;",l)
        if g:
            wr[g.group(3)]=dict(w=('num',int(g.group(2))),wk={'double':'f64','enum_or_unknown':'enum'}[g.group(1)],cond='packed'); order.append(g.group(3)); j+=1; continue
        g=re.fullmatch(r"for \(k, v\) in &self\.(\w+) \{",l)
        if g:
            f=g.group(1); e=j
            while ls[e]!='};': e+=1
            b=ls[j+1:e]
            q=' '.join(b)
            h=re.fullmatch(r"let mut entry_size = 0; entry_size \+= ::protobuf::rt::string_size\((\d+), &k\); (?:let len = v\.cached_size\(\) as u64; entry_size \+= (\d+) \+ ::protobuf::rt::compute_raw_varint64_size\(len\) \+ len;|entry_size \+= ::protobuf::rt::string_size\((\d+), &v\);) os\.write_raw_varint32\((\d+)\)\?; // Tag\. os\.write_raw_varint32\(entry_size as u32\)\?; (os\.write_string\((\d+), &k\)\?;) (.*)",q)
            k2=wcall(h.group(7))
            wr[f]=dict(w=('tag',int(h.group(4))),wk='msg',cond='map',entry=[(int(h.group(6)),'str'),(k2[1],k2[0])],esz=[('num',int(h.group(1))),('lit',int(h.group(2))) if h.group(2) else ('num',int(h.group(3)))])
            order.append(f); j=e+1; continue
        g=re.fullmatch(r"if let ::std::option::Option::Some\(ref v\) = self\.(\w+) \{",l)
        if g:
            f=g.group(1); assert ls[j+1]=='match v {'; j+=2
            while ls[j]!='};':
                h=re.fullmatch(r"&([\w:]+)::(\w+)\((?:ref )?v\) => \{",ls[j]); k,n,a=wcall(ls[j+1]); assert ls[j+2]=='},'
                wr[(f,h.group(2))]=dict(w=('num',n),wk=k,cond='one'); order.append((f,h.group(2))); j+=3
            assert ls[j+1]=='}'; j+=2; continue
        raise Exception((m['full'],l))
    # size
    ls=toks(S); sz={}
    assert ls[0]=='let mut my_size = 0;' and ls[-1]=='my_size' and ls[-2]=='self.special_fields.cached_size().set(my_size as u32);' and 'unknown_fields_size' in ls[-3]
    ls=ls[1:-3]; j=0
    def scall(l,nm='my_size'):
        g=re.fullmatch(nm+r" \+= ::protobuf::rt::(\w+)\((\d+), (.*)\);",l)
        if g and g.group(1) in KS:
            k=KS[g.group(1)]
            if '.value()' in g.group(3): k='enum'
            return k,('num',int(g.group(2)))
        g=re.fullmatch(nm+r" \+= (\d+) \+ (\d+);",l)
        if g: return 'fix',('fix',int(g.group(1)),int(g.group(2)))
        g=re.fullmatch(nm+r" \+= (\d+) \+ ::protobuf::rt::compute_raw_varint64_size\(len\) \+ len;",l)
        if g: return 'msg',('lit',int(g.group(1)))
        raise Exception((m['full'],l))
    so=[]
    while j<len(ls):
        l=ls[j]
        g=re.fullmatch(r"if (?:!self\.(\w+)\.is_empty\(\)|self\.(\w+) != (.*)) \{",l)
        if g:
            f=g.group(1) or g.group(2); k,s=scall(ls[j+1]); assert ls[j+2]=='}'; sz[f]=(k,s,'plain',g.group(3)); so.append(f); j+=3; continue
        g=re.fullmatch(r"if let Some\(v\) = self\.(\w+)(\.as_ref\(\))? \{",l)
        if g:
            if ls[j+1]=='let len = v.compute_size();': j+=1
            k,s=scall(ls[j+1]); assert ls[j+2]=='}'; sz[g.group(1)]=(k,s,'opt',None); so.append(g.group(1)); j+=3; continue
        g=re.fullmatch(r"for value in &self\.(\w+) \{",l)
        if g:
            if ls[j+1]=='let len = value.compute_size();': j+=1
            k,s=scall(ls[j+1]); assert ls[j+2]=='};'; sz[g.group(1)]=(k,s,'rep',None); so.append(g.group(1)); j+=3; continue
        g=re.fullmatch(r"my_size \+= ::protobuf::rt::vec_packed_(double|enum_or_unknown)_size\((\d+), &self\.(\w+)\);",l)
        if g: sz[g.group(3)]=({'double':'f64','enum_or_unknown':'enum'}[g.group(1)],('num',int(g.group(2))),'packed',None); so.append(g.group(3)); j+=1; continue
        g=re.fullmatch(r"for \(k, v\) in &self\.(\w+) \{",l)
        if g:
            e=j
            while ls[e]!='};': e+=1
            q=' '.join(ls[j+1:e])
            h=re.fullmatch(r"let mut entry_size = 0; entry_size \+= ::protobuf::rt::string_size\((\d+), &k\); (?:let len = v\.compute_size\(\); entry_size \+= (\d+) \+ ::protobuf::rt::compute_raw_varint64_size\(len\) \+ len;|entry_size \+= ::protobuf::rt::string_size\((\d+), &v\);) my_size \+= (\d+) \+ ::protobuf::rt::compute_raw_varint64_size\(entry_size\) \+ entry_size",q)
            es=[('num',int(h.group(1))),('lit',int(h.group(2))) if h.group(2) else ('num',int(h.group(3)))]
            assert es==wr[g.group(1)]['esz']
            sz[g.group(1)]=('msg',('lit',int(h.group(4))),'map',None); so.append(g.group(1)); j=e+1; continue
        g=re.fullmatch(r"if let ::std::option::Option::Some\(ref v\) = self\.(\w+) \{",l)
        if g:
            f=g.group(1); assert ls[j+1]=='match v {'; j+=2
            while ls[j]!='};':
                h=re.fullmatch(r"&([\w:]+)::(\w+)\((?:ref )?v\) => \{",ls[j])
                if ls[j+1]=='let len = v.compute_size();': j+=1
                k,s=scall(ls[j+1]); assert ls[j+2]=='},'; sz[(f,h.group(2))]=(k,s,'one',None); so.append((f,h.group(2))); j+=3
            assert ls[j+1]=='}'; j+=2; continue
        raise Exception((m['full'],l))
    assert so==order and set(order)==set(arms),(m['full'],so,order,arms.keys())
    out=[]; groups=[]
    for key in order:
        a=arms[key]; w=wr[key]; s=sz[key]
        lab=a['label']
        if w['cond']=='packed':
            # two arms: 'packed' and 'rep'
            al=a['alt']; assert len(al)==1
            both={a['label']:a['tag'],al[0][1]['label']:al[0][0]}
            packedtag,unp=both['packed'],both['rep']; lab='packed'
        else:
            assert 'alt' not in a; packedtag,unp=a['tag'],None
        assert lab==w['cond']==s[2],(m['full'],key,lab,w,s)
        ix=None; g=None
        if lab=='one':
            if key[0] not in groups: groups.append(key[0])
            g=groups.index(key[0])
        if a['rk']=='msg':
            if lab=='one':
                ty,_,emod=variants(m,a['enum'])[key[1]]; ix=find(emod,strip(ty))
            elif lab=='map':
                g2=re.match(r"::std::collections::HashMap<::std::string::String, (.*)>$",m['fields'][key])
                vt=g2.group(1)
                en=(m['full'],key); ent=[]
                for (rt,rk),(wn,wk),es in zip(a['entry'],w['entry'],w['esz']):
                    ent.append(dict(tag=rt,alt=None,rk=rk,w=('num',wn),wk=wk,s=es,sk='msg' if es[0]=='lit' else 'str',label='always',dflt=0,ix=find(m['mod'],vt) if rk=='msg' else None,g=None,name=['key','value'][len(ent)]))
                entries.append((en,ent)); ix=en
            else: ix=find(m['mod'],strip(m['fields'][key]))
        out.append(dict(tag=packedtag,alt=unp,rk=a['rk'],w=w['w'],wk=w['wk'],s=s[1],sk=s[0],label=lab,dflt=w.get('dflt',0),ix=ix,g=g,name=key if isinstance(key,str) else key[1]))
    return out
TAB=[]
for m in msgs: TAB.append((m['full'],m,parse(m)))
names=[x[0] for x in TAB]
for n,e in EXT.items(): names.append(n)
for en,e in entries: names.append(en)
IX={n:i for i,n in enumerate(names)}
def kind(k,ix):
    return '.msg %d'%IX[ix] if k=='msg' else '.'+k
def par(s): return '('+s+')' if ' ' in s else s
def fieldL(f):
    lab={'one':'.one %s'%f['g']}.get(f['label'],'.'+f['label'])
    s=f['s']
    sk='none' if f['sk']=='fix' else 'some '+par(kind(f['sk'],f['ix']))
    return '⟨%d, %s, %s, .%s %d, %s, .%s, %s, %s, %d⟩'%(f['tag'],'none' if f['alt'] is None else 'some %d'%f['alt'],kind(f['rk'],f['ix']),f['w'][0],f['w'][1],kind(f['wk'],f['ix']),' '.join(map(str,s)),sk,lab,f['dflt'])
def emit():
    o=[]
    o.append('''import Verif.Proto.Wire
/-
The 183 messages of bd-proto/src/protos, as read off the three functions of the generated code of each: the arms of `merge_from`
(tag and reading function), `compute_size` (number or literal given to it) and `write_to_with_cached_sizes` (number or literal tag,
writing function, condition).  Made by /verif/tools/protos.py, which refuses a line it does not know.  Then three messages of the
protobuf crate that are used as fields (from their definitions), and the entries of the four maps.
A field: tag read, second tag (packed fields), how it is read, number written, how it is written, how its size is counted (number, or
literal), which size function, label, default.
-/
namespace Verif.Wire
''')
    def msg(i,doc,fs):
        o.append('/-- %s -/'%doc)
        if fs:
            o.append('def m%d : List Field := [\n  %s]\n'%(i,',\n  '.join(fieldL(f) for f in fs)))
        else: o.append('def m%d : List Field := []\n'%i)
    i=0
    for n,m,fs in TAB:
        d='`%s` (%s:%d-%d)'%(n,m['file'],m['merge_from'][1],m['write_to_with_cached_sizes'][2])
        if fs: d+=': '+', '.join(f['name'] for f in fs)+'.'
        msg(i,d,fs); i+=1
    def sc(n,k,nm): return dict(tag=8*n+WT.get(k,0),alt=None,rk=k,w=('num',n),wk=k,s=('num',n),sk=k,label='plain',dflt=0,ix=None,g=None,name=nm)
    for e in EXT:
        fs={'Timestamp':[sc(1,'i64','seconds'),sc(2,'i32','nanos')],'Duration':[sc(1,'i64','seconds'),sc(2,'i32','nanos')],'Any':[sc(1,'str','type_url'),sc(2,'bytes','value')]}[EXT[e]]
        msg(i,'`%s` of the protobuf crate.'%EXT[e],fs); i+=1
    for (mn,key),fs in entries:
        msg(i,'The entries of the map `%s` of `%s`: key, value.'%(key,mn),fs); i+=1
    o.append('def table : Table := [\n  '+',\n  '.join(', '.join('m%d'%j for j in range(k,min(k+16,i))) for k in range(0,i,16))+']\n')
    for nm in ['ApiRequest','ApiResponse','LogUploadRequest','HandshakeRequest','StatsUploadRequest','RuntimeUpdate','ConfigurationUpdate']:
        c=[n for n in names if isinstance(n,str) and n=='client::api::'+nm]
        o.append('/-- `%s`. -/\nabbrev ix%s : Nat := %d\n'%(nm,nm,IX[c[0]]))
    o.append('end Verif.Wire')
    return '\n'.join(o)+'\n'
# the descriptors embedded in the generated files
def unlit(s):
    out=bytearray(); i=0
    while i<len(s):
        c=s[i]
        if c=='\\':
            n=s[i+1]
            if n=='\n':
                i+=2
                while i<len(s) and s[i] in ' \n\t': i+=1
                continue
            if n=='x': out.append(int(s[i+2:i+4],16)); i+=4; continue
            out.append({'n':10,'r':13,'t':9,'0':0,'\\':92,'"':34,"'":39}[n]); i+=2; continue
        assert ord(c)<128
        out.append(ord(c)); i+=1
    return bytes(out)
def dec(b):
    i=0; out=[]
    def var():
        nonlocal i
        r=0; s=0
        while True:
            c=b[i]; i+=1; r|=(c&127)<<s; s+=7
            if c<128: return r
    while i<len(b):
        t=var(); n,w=t>>3,t&7
        if w==0: out.append((n,var()))
        elif w==1: out.append((n,b[i:i+8])); i+=8
        elif w==2:
            l=var(); out.append((n,b[i:i+l])); i+=l; assert i<=len(b)
        elif w==5: out.append((n,b[i:i+4])); i+=4
        else: raise Exception(w)
    return out
def one(l,n,d=None):
    x=[v for k,v in l if k==n]; return x[-1] if x else d
def many(l,n): return [v for k,v in l if k==n]
DT={1:'f64',2:'f32',3:'i64',4:'u64',5:'i32',8:'bool',9:'str',11:'msg',12:'bytes',13:'u32',14:'enum'}
DM={}   # full proto name -> message
def addmsg(file,pkg,raw,proto3):
    m=dec(raw); nm=pkg+'.'+one(m,1).decode()
    opts=dec(one(m,7,b'')); 
    d=dict(name=nm,file=file,entry=bool(one(opts,7,0)),proto3=proto3,fields=[],oneofs=len(many(m,8)))
    for fr in many(m,2):
        f=dec(fr); o=dec(one(f,8,b''))
        d['fields'].append(dict(name=one(f,1).decode(),num=one(f,3),label=one(f,4),ty=DT[one(f,5)],tn=one(f,6,b'').decode(),oneof=one(f,9),p3=bool(one(f,17,0)),packed=one(o,2)))
    DM[nm]=d
    for n in many(m,3): addmsg(file,nm,n,proto3)
DF={}
for p,(t,mods) in FILES.items():
    k=t.index("static file_descriptor_proto_data: &'static [u8] = b\""); a=k+len("static file_descriptor_proto_data: &'static [u8] = b\"")
    e=a
    while t[e]!='"':
        e+=2 if t[e]=='\\' else 1
    fd=dec(unlit(t[a:e])); syn=one(fd,12,b'proto2').decode(); pkg='.'+one(fd,2,b'').decode()
    DF[p]=(one(fd,1).decode(),pkg,syn)
    for r in many(fd,4): addmsg(p,pkg,r,syn=='proto3')
def snake(x):
    return re.sub(r'(?<=[a-z0-9])(?=[A-Z])|(?<=[A-Z])(?=[A-Z][a-z])','_',x).lower()
def norm(x): return x.lower().replace('_','')
SC=[]   # the schema, in the order of the tables
byrust={}
for nm,d in DM.items():
    if d['entry']: continue
    pkg=DF[d['file']][1]; parts=nm[len(pkg)+1:].split('.')
    base=os.path.relpath(d['file'],ROOT)[:-3].split('/')
    byrust[tuple(base+[norm(x) for x in parts[:-1]]+[parts[-1]])]=nm
P2I={}
for i,(n,m,fs) in enumerate(TAB):
    base=os.path.relpath(os.path.join('/repo',m['file']),ROOT)[:-3].split('/')
    k=tuple(base+[norm(x) for x in m['mod'][len(base):]]+[m['name']])
    P2I[byrust.pop(k)]=i
assert not byrust,byrust
for j,e in enumerate(EXT): P2I['.google.protobuf.'+EXT[e]]=len(TAB)+j
# the entries of maps, named by the map
def camel(x): return ''.join(w[:1].upper()+w[1:] for w in x.split('_'))
I2P={i:p for p,i in P2I.items()}
for j,((mn,key),e) in enumerate(entries):
    P2I[I2P[IX[mn]]+'.'+camel(key)+'Entry']=len(TAB)+len(EXT)+j
assert set(DM)<=set(P2I)
def sfields(d):
    "singular, repeated and map fields in their order, then the oneofs: the order of the generated structs"
    out=[]; ones=[]; 
    for f in d['fields']:
        ix=P2I[f['tn']] if f['ty']=='msg' else None
        k='.msg %d'%ix if f['ty']=='msg' else '.'+f['ty']
        if f['label']==3:
            if f['ty']=='msg' and f['tn'] in DM and DM[f['tn']]['entry']: l='.map'
            elif f['ty'] in('msg','str','bytes') or f['packed']==0: l='.rep'
            else: l='.packed'
        elif d['entry']: l='.always'
        elif f['oneof'] is not None and not f['p3']:
            ones.append((f['oneof'],f['num'],k,f['name'])); continue
        elif f['p3'] or f['ty']=='msg': l='.opt'
        else: l='.plain'
        out.append((f['num'],k,l,f['name']))
    gs=sorted(set(o for o,_,_,_ in ones))
    return out+[(n,k,'.one %d'%gs.index(o),nm) for o,n,k,nm in sorted(ones,key=lambda x:x[0])]
def emit_schema():
    o=[]
    o.append("""import Verif.Proto.Wire
/-
The same messages as the schema has them: the descriptors (`file_descriptor_proto_data`) that are embedded in the generated files of
bd-proto/src/protos, decoded.  Made by /verif/tools/protos.py.  A field: its number, its type and what kind of field it is (proto3:
a repeated number is packed, a singular message or `optional` field has presence).  The order is that of the generated structs:
the fields in the order of the file, then the alternatives of the oneofs.
-/
namespace Verif.Wire

structure SField where
  num : Nat
  kind : Kind
  label : Label
  deriving DecidableEq, Repr

abbrev Schema := List (List SField)
""")
    inv={i:p for p,i in P2I.items()}
    for i in range(len(P2I)):
        p=inv[i]
        if p in DM:
            d=DM[p]; fs=sfields(d)
            src=os.path.relpath(d['file'],'/repo')
            doc='`%s` (%s).'%(p[1:],src)
        else:
            nm=p.split('.')[-1]
            fs={'Timestamp':[(1,'.i64','.plain',''),(2,'.i32','.plain','')],'Duration':[(1,'.i64','.plain',''),(2,'.i32','.plain','')],'Any':[(1,'.str','.plain',''),(2,'.bytes','.plain','')]}[nm]
            doc='`%s` (not in the descriptors of the repository).'%p[1:]
        o.append('/-- %s -/'%doc)
        o.append('def s%d : List SField := [%s]\n'%(i,', '.join('⟨%d, %s, %s⟩'%(n,k,l) for n,k,l,_ in fs)))
    k=len(P2I)
    o.append('def schema : Schema := [\n  '+',\n  '.join(', '.join('s%d'%j for j in range(a,min(a+16,k))) for a in range(0,k,16))+']\n')
    o.append('end Verif.Wire')
    return '\n'.join(o)+'\n'
if __name__=='__main__':
    out=sys.argv[1] if len(sys.argv)>1 else os.path.join(os.path.dirname(os.path.abspath(__file__)),'..','lean','Verif','Proto')
    open(os.path.join(out,'Tables.lean'),'w').write(emit())
    open(os.path.join(out,'Schema.lean'),'w').write(emit_schema())

#!/usr/bin/env python3
"""Compares the tables of the model with the text of /repo, and looks at every citation of a file and lines.
Run by hand: python3 tools/check_tables.py [repo]. It is not a proof; it finds typing errors in the model."""
import glob, os, re, sys
repo = sys.argv[1] if len(sys.argv) > 1 else '/repo'
src = repo + '/whasm/src/'
lean = os.path.join(os.path.dirname(os.path.dirname(os.path.abspath(__file__))), 'lean/Verif/')
bad = []
def read(f): return open(f, encoding='utf-8').read()
def low(s): return s[0].lower() + s[1:]
def same(what, a, b):
    if a == b: print('ok   %s (%d entries)' % (what, len(a)))
    else:
        bad.append(what)
        print('DIFF %s' % what)
        for k in sorted(set(a) | set(b), key=str):
            if a.get(k) != b.get(k): print('     %s: rust %s, model %s' % (k, a.get(k), b.get(k)))

# opcodes of the instructions that are grouped in the model
bi = read(src + 'binary/instr.rs')
rust = {int(o, 16): low(n) for o, n in re.findall(r'^\s*0x([0-9A-F]{2}) => Ok\(Instr::(\w+)', bi, re.M)}
args = {low(n): a.count('bin.parse()?') for n, a in re.findall(r'Ok\(Instr::(\w+)(.*)\),?$', bi, re.M)}
mi = read(lean + 'Model/BinaryInstr.lean')
def table(name):
    t = re.search(r'def %s .*?\[(.*?)\]\n' % name, mi, re.S).group(1)
    return {int(o, 16): n for o, n in re.findall(r'\(0x([0-9A-F]{2}), \.(\w+)\)', t)}
tabs = {k: table(k) for k in ('loadTable', 'storeTable', 'numTable')}
model = {k: v for t in tabs.values() for k, v in t.items()}
same('opcodes of loads, stores and numeric instructions', {k: v for k, v in rust.items() if 0x28 <= k <= 0x3E or k >= 0x45}, model)
same('number of immediates', {n: args[n] for n in model.values()},
     {n: (0 if n in tabs['numTable'].values() else 2) for n in model.values()})
names = {'return': 'ret', 'if': 'ifElse', 'else': 'elseMark', 'end': 'endMark'}
arms = re.search(r'def instrAt .*?\n\n', mi, re.S).group(0)
model = {k: re.findall(r'pure \(?\.(\w+)', x) for k, x in
         {int(o, 16): x for o, x in re.findall(r'\| 0x([0-9A-F]{2}) => (.*?)(?=\n  \|)', arms, re.S)}.items()}
model = {k: (v[-1] if v else 'ifElse') for k, v in model.items()}
r = {k: names.get(v, v) for k, v in rust.items() if not (0x28 <= k <= 0x3E or k >= 0x45)}
r[0x04] = 'ifElse'
same('opcodes of the other instructions', r, model)

# types of operands
vi = read(src + 'validation/instr.rs')
def vals(s): return [low(v) for v in re.findall(r'ty::Val::(\w+)', s)]
rust = {}
for n, a, b in re.findall(r'/\* 0x[4-9A-B][0-9A-F] \*/ Instr::(\w+) => \{\s*ctx\.stacks\.pop_operands\(&\[(.*?)\]\)\?;\s*ctx\.stacks\.push_operands\(&\[(.*?)\]\);\s*\}', vi):
    rust[low(n)] = (vals(a), vals(b))
mv = read(lean + 'Model/ValidInstr.lean')
sig = re.search(r'def numSig .*?\n\n', mv, re.S).group(0)
model = {n: (re.findall(r'\.(\w+)', a), re.findall(r'\.(\w+)', b)) for n, a, b in re.findall(r'\| \.(\w+) => \(\[(.*?)\], \[(.*?)\]\)', sig)}
same('operands of numeric instructions', rust, model)
for f in ('load', 'store'):
    rust = {low(n): (s, low(v)) for n, s, v in re.findall(r'Instr::(\w+)\(_offset, align\) => \{\s*validate_%s\(ctx, \*align, (\d+), ty::Val::(\w+)\)' % f, vi)}
    sig = re.search(r'def %sSig .*?\n\n' % f, mv, re.S).group(0)
    same('operands of %ss' % f, rust, {n: (s, v) for n, s, v in re.findall(r'\| \.(\w+) => \((\d+), \.(\w+)\)', sig)})

# declarations
si = read(src + 'structure/instr.rs')
rust = {int(o, 16): n for o, n in re.findall(r'/\* 0x([0-9A-F]{2}) \*/ (\w+)', si)}
dbg = read(lean + 'Model/Debug.lean')
shown = set(re.findall(r'"(\w+)"', dbg))
same('names printed for instructions', {n: True for n in rust.values()}, {n: n in shown for n in rust.values()})
same('opcodes in the comments of structure/instr.rs', {k: low(v) for k, v in rust.items() if k != 4},
     {int(o, 16): low(n) for o, n in re.findall(r'^\s*0x([0-9A-F]{2}) => Ok\(Instr::(\w+)', bi, re.M)})

# other tags
def tags(text, name):
    m = re.search(r'WasmBinaryParse for %s \{.*?\n\}' % name, text, re.S).group(0)
    return {int(o, 16) for o in re.findall(r'0x([0-9A-F]{2}) =>', m)}, re.findall(r'ty: "(.*?)"', m)
bt, bm = read(src + 'binary/ty.rs'), read(src + 'binary/module.rs')
mm = read(lean + 'Model/BinaryModule.lean')
a, b = {}, {}
for text, name, defn, mt in [(bt, 'ty::Limits', 'parseLimits', mi), (bt, 'ty::Val', 'parseVal', mi), (bt, 'ty::Elem', 'parseElemTy', mi), (bt, 'ty::Func', 'parseFuncTy', mi),
        (bt, 'ty::Mut', 'parseMut', mi), (bm, 'module::desc::Import', 'parseImportDesc', mm), (bm, 'module::desc::Export', 'parseExportDesc', mm)]:
    a[name] = tags(text, name)
    d = re.search(r'def %s .*?\n\n' % defn, mt, re.S).group(0)
    b[name] = ({int(o, 16) for o in re.findall(r'\| 0x([0-9A-F]{2}) =>', d)}, re.findall(r'invalidVariantId byte "(.*?)"', d))
same('tags of types, imports and exports', a, b)

# messages
er = read(src + 'binary/core/error.rs')
rust = {low(n): re.sub(r'\{\}', '', m) for m, n in re.findall(r'display = "(.*?)"[^\n]*\n\s*(\w+)', er)}
ms = read(lean + 'Model/Message.lean')
d = re.search(r'def Error.display .*?\n\n', ms, re.S).group(0)
same('messages of parse errors', rust, {n: ''.join(re.findall(r'text "(.*?)"', x)) for n, x in re.findall(r'\| \.(\w+)[^\n]*? => (.*)', d) if n not in ('panic', 'fuel')})

# unsafe code: of the modules that are compiled (lib.rs)
mods = re.findall(r'mod (\w+);', read(src + 'lib.rs'))
rust = []
for f in sorted(sum([glob.glob(src + m + '/**/*.rs', recursive=True) for m in mods], []) + glob.glob(repo + '/parser/src/*.rs')):
    for n, l in enumerate(read(f).split('\n'), 1):
        if re.search(r'\bunsafe\b', l): rust.append((f[len(repo) + 1:], n))
same('unsafe blocks', rust, [('whasm/src/binary/core/float.rs', 49)])

# citations
lengths, cites = {}, 0
for f in glob.glob(src + '**/*.rs', recursive=True) + glob.glob(repo + '/parser/src/*.rs'):
    lengths[f] = read(f).count('\n') + 1
for f in glob.glob(lean + '**/*.lean', recursive=True):
    for path, nums in re.findall(r'`(?:/repo/)?([\w/]+\.rs):(\d[\d, -]*)`', read(f)):
        g = [x for x in (src + path, repo + '/' + path, repo + '/whasm/src/' + path) if x in lengths]
        cites += 1
        top = max(int(n) for n in re.findall(r'\d+', nums))
        if not g or top > lengths[g[0]]:
            bad.append('citation'); print('DIFF %s cites %s:%s' % (f, path, nums))
print('looked at %d citations' % cites)
sys.exit(1 if bad else 0)

#!/usr/bin/env python3
"""Turn the expectations of the tests in /repo into `#guard` lines for the model (lean/Verif/RepoTests.lean)."""
import re, glob
R = '/repo/'
out = []
n = 0


def guard(t):
    global n
    n += 1
    out.append('#guard ' + t)


def cstr(t):
    """adjacent C++ string literals -> python string"""
    parts = re.findall(r'(?:u8|u)?"((?:[^"\\]|\\.)*)"', t)
    return ''.join(parts).replace('\\"', '"').replace('\\n', '\n')


def lean(s):
    return s.replace('\\', '\\\\').replace('"', '\\"').replace('\n', '\\n')


LIT = r'((?:\s*(?:u8|u)?"(?:[^"\\]|\\.)*")+)\s*'

# output/tests/test-sylstring.cxx
src = open(R + 'output/tests/test-sylstring.cxx').read()
src = re.sub(r'^\s*//.*$', '', src, flags=re.M)
funs = re.split(r'\nbool\n(\w+) \(?\)', src)
objs = {'ThaiSylOutput': 'thaiSyl', 'RomanSylOutput': 'romanSyl', 'PhoneticSylOutput': 'phoneticSyl',
        'RawSylOutput': 'rawSyl', 'SoundexSylOutput': 'soundexSyl'}
out.append('/-! ## output/tests/test-sylstring.cxx -/')
for body in re.split(r'\nbool\n', src)[1:]:
    o = {}
    m = re.search(r"make_unique<DelimOutput> \(make_unique<(\w+)>\(\), '(.)'\)", body)
    if m:
        o['output'] = f'delimStr {objs[m.group(1)]} ch!"{m.group(2)}"'
    m = re.search(r"make_unique<JsonOutput> \(make_unique<(\w+)>\(\)\)", body)
    if m:
        o['output'] = f'jsonStr {objs[m.group(1)]}'
    if 'make_unique<RomanOutput>' in body:
        o['output'] = 'romanStr false'
        o['outputCap'] = 'romanStr true'
    if not o:
        continue
    syls = ''
    cur = None
    pat = (r'syls (\+?=) (?:Syl|SylString) \(' + LIT + r'\);'
           r'|syls \+= (Syl::Blank);'
           r'|syls \+= Syl \((\d+), u"(\w+)"\);'
           r'|= (output|outputCap)->output \(syls\)'
           r'|!=' + LIT + r'\)')
    for m in re.finditer(pat, body):
        if m.group(1):
            t = f'ofD b!"{lean(cstr(m.group(2)))}"'
            syls = t if m.group(1) == '=' else syls + ' ++ ' + t
        elif m.group(3):
            syls += ' ++ [Syl.blank]'
        elif m.group(4):
            syls += f' ++ [Syl.lit {m.group(4)} u!"{m.group(5)}"]'
        elif m.group(6):
            cur = o[m.group(6)]
        elif m.group(7):
            guard(f'{cur} ({syls}) = .ok b!"{lean(cstr(m.group(7)))}"')

# output/tests/test-list.cxx
src = open(R + 'output/tests/test-list.cxx').read()
out.append('\n/-! ## output/tests/test-list.cxx -/')
strs = re.findall(r'push_back \(SylString \("([^"]*)"\)\)', src)
out.append('def strList : List SylString := [' + ', '.join(f'ofD b!"{s}"' for s in strs) + ']')
body = src[src.index('TestThaiPronun()'):]
exp = [cstr(x) for x in re.findall(r'result == ' + LIT + r'\)', body)]
exp += [cstr(re.search(r'expected =' + LIT + ';', body).group(1))]
for f, e in zip(['delimList thaiSyl ch!"-"', 'romanList false', 'romanList true', 'jsonList thaiSyl', 'gjsonList thaiSyl'], exp):
    guard(f'{f} strList = .ok b!"{lean(e)}"')

# output/tests/test-lattice.cxx
src = open(R + 'output/tests/test-lattice.cxx').read()
out.append('\n/-! ## output/tests/test-lattice.cxx -/')
for i in (1, 2, 3):
    e = cstr(re.search(rf'Latt{i}Expect =' + LIT + ';', src).group(1))
    body = re.search(rf'PrepareLatt{i}\(\)\n{{(.*?)\n}}', src, re.S).group(1)
    fr, ch, la = {}, {}, []
    for a, b, c in re.findall(r'(\w+) \+= (?:SylString \("([^"]*)"\)|(\w+));', body):
        if b:
            fr.setdefault(a, []).append(f'ofD b!"{b}"')
        elif a == 'latt':
            la.append('[' + ', '.join(f'frac [{", ".join(fr[x])}]' for x in ch[c]) + ']')
        else:
            ch.setdefault(a, []).append(c)
    guard(f'gjsonLatt thaiSyl [{", ".join(la)}] = .ok b!"{lean(e)}"')

# lattice/tests/test-prondag.cxx
src = open(R + 'lattice/tests/test-prondag.cxx').read()
out.append('\n/-! ## lattice/tests/test-prondag.cxx -/')
body = src[:src.index('TestPronDAGEdgeExist')]
ds = dict(re.findall(r'SylString (\w+) \("([^"]*)"\);', body))
st = {}
order = []
for m in re.finditer(r'(\w+) \+= (\w+);|push_back \((\w+)\)', body):
    if m.group(3):
        x = m.group(3)
        order.append(' ++ '.join(f'ofD b!"{ds[y]}"' for y in st.get(x, [x])))
    else:
        st.setdefault(m.group(1), []).append(m.group(2))
out.append('def khanom : PronunDAG := PronunDAG.ofStrings [' + ',\n  '.join(order) + ']')


def frac(t):
    t = t.strip()
    pos, rest = re.match(r'(-?\d+), (.*)', t, re.S).groups()
    if rest.startswith('{{'):
        alts = re.findall(r'\{([^{}]*)\}', rest)
        return f'fracs {pos if int(pos)>=0 else "("+pos+")"} [' + ', '.join(
            '[' + ', '.join(f'b!"{x}"' for x in re.findall(r'"([^"]*)"', a)) + ']' for a in alts) + ']'
    return f'fracs {pos if int(pos)>=0 else "("+pos+")"} [[' + ', '.join(f'b!"{x}"' for x in re.findall(r'"([^"]*)"', rest)) + ']]'


def checks(name, nxt, dag, val):
    s = re.sub(r'/\*\*.*?\*\*/', '', src, flags=re.S)
    s = s[s.index(name + ' (const'):]
    s = s[:s.index('return isSuccess')]
    for neg, a, b, v in re.findall(r'if \((!?)dag\.isEdgeExist \(\s*(-?\d+), (-?\d+), (.*?)\s*\)\)\s*\{', s, re.S):
        guard(f'onDag ({dag}) (fun d => {"" if neg else "!"}d.isEdgeExist ({a}) ({b}) ({val(v)}))')


checks('TestPronDAGEdgeExist', None, '.ok khanom', lambda v: 'syl b!"' + re.search(r'"([^"]*)"', v).group(1) + '"')
fv = lambda v: frac(re.match(r'MakeFrac \((.*)\)?$', v, re.S).group(1))
checks('TestFracDAGEdgeExist', None, '.ok khanom.toFrac', fv)
checks('TestFracDAGEdgeExist_NoSingle', None, 'khanom.toFrac.mergeSingles', fv)
checks('TestFracDAGEdgeExist_NoParallel', None, 'khanom.fracDAG', fv)

# dict/tests
out.append('\n/-! ## dict/tests/test-dict.cxx -/')
tsv = open(R + 'dict/tests/test.lst').read()
out.append(f'def testDict : Dict := dictOf b!"{lean(tsv).replace(chr(9), chr(92)+"t")}"')
src = open(R + 'dict/tests/test-dict.cxx').read()
phrase = re.search(r'phrase = u"([^"]*)"', src).group(1)
for pos, lst in re.findall(r'expect(\d+) = \{(.*?)\};', src, re.S):
    es = re.findall(r'\{ (\d+), "([^"]*)" \}', lst)
    guard(f'found 20 (Match.new u!"{phrase}" {pos} testDict) = [' + ', '.join(f'({a}, b!"{b}")' for a, b in es) + ']')

# thpronun/tests
out.append('\n/-! ## thpronun/tests/*.sh (no word breaks) -/')
for f in sorted(glob.glob(R + 'thpronun/tests/*.sh')):
    out.append('-- ' + f.split('/')[-1])
    for a, p in re.findall(r'^\.\./thpronun (.*?) \| grep "(.*?)"', open(f).read(), re.M):
        a = a.split()
        c = [x[1] for x in a if re.fullmatch('-[trpws]', x)] or ['t']
        w = [x for x in a if x[0] != '-'][0]
        guard(f'prints exceptDict ch!"{c[0]}" b!"{w}" b!"{p}"')

head = '''import Verif.Model.Cli
import Verif.Model.GenDict
import Verif.Model.ShippedData
import Verif.Spec.Dict

/-! # The expectations of the tests in /repo, evaluated on the model

Written by tools/repotests.py. These are tests of the translation, not proofs: they are run by the Lean evaluator, and no
theorem depends on them. The programs of thpronun/tests/ are run without word breaks (libthai is not modelled). -/

namespace Thpronun.RepoTests

def syl (d : Str) : Syl := match sylOfDesc d with
  | .ok s => s
  | _ => Syl.lit 0 u!"bad"

def ofD (d : Str) : SylString := match SylString.ofDesc d with
  | .ok s => s
  | _ => []

def frac (l : List SylString) : PronunFrac := l.foldl PronunFrac.addStr PronunFrac.empty

/-- `MakeFrac` of test-prondag.cxx -/
def fracs (pos : Int) (l : List (List Str)) : PronunFrac :=
  match l with
  | [a] => PronunFrac.single pos (a.map syl)
  | _ => l.foldl (fun f a => f.addFrac (PronunFrac.single pos (a.map syl))) PronunFrac.empty

def onDag {α} (d : Res α) (f : α → Bool) : Bool := match d with
  | .ok d => f d
  | _ => false

def dictOf (tsv : Str) : Dict :=
  match Gen.genDict 0 tsv with
  | .ok r => match Dict.empty.open_ r.file with
    | .ok (d, true) => d
    | _ => Dict.empty
  | _ => Dict.empty

def found : Nat → Match → List (Nat × Str)
  | 0, _ => []
  | n + 1, m =>
    match m.findNext with
    | (m, true) => (m.getCurPos, match m.getData with | .ok d => d | _ => []) :: found n m
    | (_, false) => []

/-- data/except.dic -/
def exceptDict : Dict := dictOf (Shipped.exceptTable.flatMap fun e => Spec.entryLine ⟨e.1, e.2⟩)

/-- `p` occurs in `s` -/
def occurs (p s : Str) : Bool := (List.range (s.length + 1)).any fun i => p.isPrefixOf (s.drop i)

/-- `thpronun -d dict -c word | grep text` succeeds -/
def prints (dict : Dict) (c : Byte) (word text : Str) : Bool :=
  match (do
    let w ← fromBytes word
    let d ← parseU16Fuel thaiCType w 5000 (some dict) []
    (Cli.makeOutput c false false).run d : Res Str) with
  | .ok o => occurs text o
  | _ => false

#guard exceptDict.mTrie.isSome

'''
open('/verif/lean/Verif/RepoTests.lean', 'w').write(head + '\n'.join(out) + '\n\nend Thpronun.RepoTests\n')
print(n, 'checks')

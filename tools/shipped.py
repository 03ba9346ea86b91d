#!/usr/bin/env python3
"""Generate lean/Verif/Model/ShippedData.lean from /repo/data (see data/Makefile.am)."""
import os, re, sys
root = os.path.dirname(os.path.dirname(os.path.abspath(__file__)))
data = sys.argv[1] if len(sys.argv) > 1 else '/repo/data'
mk = open(data + '/Makefile.am').read()
src = re.search(r'EXCEPT_SRC = \\\n(.*?)\$\(NULL\)', mk, re.S)[1]
files = re.findall(r'\S+\.tsv', src)
def lit(s):
    return s.replace('\\', '\\\\').replace('"', '\\"').replace('\t', '\\t').replace('\n', '\\n')
out = ['''import Verif.Model.Utf

/-! # The shipped exception data (generated by tools/shipped.py from data/*.tsv, data/Makefile.am) -/

namespace Thpronun.Shipped
''']
names = []
for f in files:
    t = open(data + '/' + f, 'rb').read().decode('utf-8')
    n = 'ex' + ''.join(x.capitalize() for x in f[:-4].split('-')[1:])
    names.append(n)
    out.append('/-- data/%s -/\ndef %s : Str :=' % (f, n))
    ls = t.splitlines(keepends=True)
    out.append('  ' + ' ++\n  '.join('b!"%s"' % lit(x) for x in ls) + '\n')
out.append('/-- `EXCEPT_SRC`, data/Makefile.am -/\ndef exceptSrc : List Str := [%s]\n' % ', '.join(names))
lines = sorted(set(b''.join(open(data + '/' + f, 'rb').read() for f in files).split(b'\n')) - {b''})
out.append('/-- The words and data of except.tsv, in order: `cat $^ | LC_ALL=C sort -u`, data/Makefile.am\n'
           '(that these are the lines is theorem `C48_file`). -/\ndef exceptTable : List (U16Str × Str) := [')
out.append(',\n'.join('  (u!"%s", b!"%s")' % tuple(lit(x) for x in l.decode('utf-8').split('\t', 1)) for l in lines) + ']\n')
out.append('end Thpronun.Shipped')
open(root + '/lean/Verif/Model/ShippedData.lean', 'w').write('\n'.join(out) + '\n')

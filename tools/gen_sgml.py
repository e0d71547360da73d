#!/usr/bin/env python3
"""Generates lean/Verif/Sgml/Table.lean from /repo/include/stdex/sgml_unicode.hpp (run by hand; the result is committed)."""
import re
s = open('/repo/include/stdex/sgml_unicode.hpp', encoding='utf-8-sig').read()
pairs = []
for m in re.finditer(r'\{ "([^"]*)", _UTF32_\("([^"]*)"\)', s):
    u, t, k = m.group(2), [], 0
    while k < len(u):
        assert u[k] == '\\' and u[k + 1] == 'u'
        t.append(int(u[k + 2:k + 6], 16)); k += 6
    pairs.append(([ord(c) for c in m.group(1)], t))
idx = [int(x, 16) for x in re.findall(r'0x([0-9a-f]+)', s[s.index('unicode_sgml[]'):])]
assert len(pairs) == 1535 and len(idx) == 1535
o = ["/-", "The tables of include/stdex/sgml_unicode.hpp. Generated by tools/gen_sgml.py; do not edit.", "-/", "namespace Verif.Sgml", "set_option maxRecDepth 4000", ""]
C = 64
names = []
for i in range(0, len(pairs), C):
    n = f"pairs{i // C}"; names.append(n)
    o.append(f"/-- sgml_unicode.hpp, entries {i} to {min(i + C, len(pairs)) - 1} of `sgml_unicode` (lines 26-1560). -/")
    o.append(f"def {n} : List (List Nat × List Nat) := [")
    o.append(",\n".join("  (%s, %s)" % (str(a).replace(' ', ''), str(b).replace(' ', '')) for a, b in pairs[i:i + C]) + "]")
    o.append("")
o.append("/-- `sgml_unicode`, sgml_unicode.hpp 25-1561: entity name and Unicode text, without terminators. -/")
o.append("def pairChunks : List (List (List Nat × List Nat)) := [" + ", ".join(names) + "]")
o.append("@[inherit_doc pairChunks] def pairs : List (List Nat × List Nat) := pairChunks.flatten")
o.append("")
inames = []
for i in range(0, len(idx), C):
    n = f"order{i // C}"; inames.append(n)
    o.append(f"/-- sgml_unicode.hpp, entries {i} to {min(i + C, len(idx)) - 1} of `unicode_sgml` (lines 1564-3098). -/")
    o.append(f"def {n} : List Nat := [" + ", ".join(map(str, idx[i:i + C])) + "]")
    o.append("")
o.append("/-- `unicode_sgml`, sgml_unicode.hpp 1563-3099. -/")
o.append("def orderChunks : List (List Nat) := [" + ", ".join(inames) + "]")
o.append("@[inherit_doc orderChunks] def order : List Nat := orderChunks.flatten")
o.append("")
o.append("end Verif.Sgml")
open('/verif/lean/Verif/Sgml/Table.lean', 'w').write("\n".join(o) + "\n")

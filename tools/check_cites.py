#!/usr/bin/env python3
"""Checks the citations of the form  `name`, file:A-B  in the model against the source in /repo:
the name must occur on one of the first lines of the range, and the range should end at the closing brace."""
import re, glob, os, sys
here = os.path.dirname(os.path.abspath(__file__))
src = {}
bad = 0
n = 0
for f in sorted(glob.glob(os.path.join(here, "../lean/Verif/Model/*.lean"))):
    t = open(f).read()
    for m in re.finditer(r"`(\w+)`,\s+(tg\.[ch]):(\d+)-(\d+)", t):
        name, fn, a, b = m.group(1), m.group(2), int(m.group(3)), int(m.group(4))
        if fn not in src:
            src[fn] = open("/repo/" + fn).read().split("\n")
        L = src[fn]
        n += 1
        b = min(b, len(L))
        ok = any(re.search(r"\b" + name + r"\b", l) for l in L[a - 1:a + 3])
        end = L[b - 1].startswith("}") or L[b-1].strip() in ("", "}")
        if not ok or not end:
            bad += 1
            real = [i + 1 for i, l in enumerate(L) if re.match(r"^(static |struct |const |enum |unsigned |bool |int |void |double |size_t |char |\w+ |\*)*\**" + name + r"\(", l)]
            ends = []
            for r in real:
                e = r
                while not L[e - 1].startswith("}"): 
                    e += 1
                    if e >= len(L): break
                ends.append((r, e))
            print(os.path.basename(f), name, f"{a}-{b}", "name" if not ok else "", "end" if not end else "", ends)
print(n, "citations,", bad, "to check")

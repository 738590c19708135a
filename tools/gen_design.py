"""Writes the generated parts of DESIGN.md: the axioms of the theorems in MANIFEST.json and the code that is modelled.
Needs a built project (it runs `lake env lean`)."""
import collections
import glob
import json
import os
import re
import subprocess
import sys
import tempfile

ROOT = os.path.dirname(os.path.dirname(os.path.abspath(__file__)))
LEAN = os.path.join(ROOT, "lean")


def axioms():
    names = []
    for claim in json.load(open(os.path.join(ROOT, "MANIFEST.json")))["claims"]:
        names += [n for n in claim["theorems"] if n not in names]
    text = "import Verif\n" + "".join("#print axioms %s\n" % n for n in names)
    with tempfile.NamedTemporaryFile("w", suffix=".lean", delete=False) as f:
        f.write(text)
    out = subprocess.run(["lake", "env", "lean", f.name], cwd=LEAN, capture_output=True, text=True).stdout
    os.unlink(f.name)
    out = re.sub(r"\n\s+", " ", out)
    groups = collections.OrderedDict()
    found = set()
    for m in re.finditer(r"'([^']+)' (?:depends on axioms: \[([^\]]*)\]|does not depend on any axioms)", out):
        found.add(m.group(1))
        ax = ", ".join(sorted(a.strip() for a in (m.group(2) or "").split(",") if a.strip()))
        groups.setdefault(ax, []).append(m.group(1))
    missing = [n for n in names if n not in found]
    if missing:
        sys.exit("no axioms printed for %s" % missing)
    lines = []
    for ax in sorted(groups, key=lambda a: (a.count(","), a)):
        by = collections.OrderedDict()
        for n in groups[ax]:
            ns, t = n.rsplit(".", 1)
            by.setdefault(ns, []).append(t)
        lines.append("* %s: %s." % (ax.join(["`", "`"]).replace(", ", "`, `") if ax else "no axioms", "; ".join(
            "%s: %s" % (ns.replace("Clink.", ""), ", ".join(ts)) for ns, ts in sorted(by.items()))))
    return "\n".join(lines) + "\n"


def coverage():
    parts = collections.defaultdict(lambda: collections.defaultdict(set))
    for path in sorted(glob.glob(os.path.join(LEAN, "Verif", "Model", "*.lean"))):
        module = os.path.basename(path)[:-5]
        for doc in re.findall(r"/-[-!].*?-/", open(path).read(), re.S):
            for m in re.finditer(r"\b([a-zA-Z0-9_/]+\.(?:cpp|h|lua)):((?:\d+(?:-\d+)?(?:, | and |,\n)?)+)", doc):
                src = m.group(1)
                src = src[6:] if src.startswith("clink/") else src
                src = {"column_widths.cpp": "lib/src/column_widths.cpp", "column_widths.h": "lib/src/column_widths.h",
                       "display_matches.cpp": "lib/src/display_matches.cpp", "host_cmd.cpp": "app/src/host/host_cmd.cpp"}.get(src, src)
                for r in re.findall(r"\d+(?:-\d+)?", m.group(2)):
                    a, b = (r.split("-") + [r])[:2]
                    parts[src][module].add((int(a), int(b)))
    lines = ["| Source (under clink/) | Lines | Model |", "|----|----|----|"]
    for src in sorted(parts):
        ranges = sorted(x for s in parts[src].values() for x in s)
        merged = []
        for a, b in ranges:
            if merged and a <= merged[-1][1] + 3:
                merged[-1][1] = max(merged[-1][1], b)
            else:
                merged.append([a, b])
        lines.append("| %s | %s | %s |" % (src, ", ".join("%d-%d" % (a, b) if a != b else str(a) for a, b in merged),
                                           ", ".join(sorted(parts[src]))))
    return "\n".join(lines) + "\n"


p = os.path.join(ROOT, "DESIGN.md")
s = open(p).read()
for name, text in (("axioms", axioms()), ("coverage", coverage())):
    a, b = "<!-- %s: generated by tools/gen_design.py -->\n" % name, "<!-- end of %s -->\n" % name
    i, j = s.index(a) + len(a), s.index(b)
    s = s[:i] + text + s[j:]
open(p, "w").write(s)

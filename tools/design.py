"""Writes /verif/DESIGN.md from tools/design_head.md, tools/claims.txt, properties.jsonl, the Lean sources and the output of
`lake env lean Axioms.lean` (a file of `#print axioms` lines, written by manifest.py), given as the first argument."""
import json, os, re, sys
root = os.path.dirname(os.path.dirname(os.path.abspath(__file__)))
lean = os.path.join(root, "lean", "Verif")

axioms = {}
text = open(sys.argv[1]).read() if len(sys.argv) > 1 else ""
for m in re.finditer(r"'([^']+)' (does not depend on any axioms|depends on axioms: \[([^\]]*)\])", text.replace("\n", " ")):
    a = [x.strip() for x in (m.group(3) or "").split(",") if x.strip()]
    axioms[m.group(1)] = a

docs, where, heads = {}, {}, []
for d, _, fs in sorted(os.walk(lean)):
    for f in sorted(fs):
        if not f.endswith(".lean"):
            continue
        p = os.path.join(d, f)
        s = open(p).read()
        rel = os.path.relpath(p, lean)
        h = re.search(r"^/-\n(.*?)\n-/", s, re.S | re.M)
        heads.append((rel, h.group(1).strip() if h else ""))
        ns = []
        pend = None
        for m in re.finditer(r"^(?:namespace ([A-Z]\S*)$|end ([A-Z]\S*)$|/--(.*?)-/|(?:private |protected )?theorem (\S+))", s, re.S | re.M):
            if m.group(1):
                ns.append(m.group(1))
            elif m.group(2):
                if ns and ns[-1] == m.group(2):
                    ns.pop()
            elif m.group(3) is not None:
                pend = (re.sub(r"\s+", " ", m.group(3)).strip(), m.end())
            elif m.group(4):
                name = ".".join(ns + [m.group(4)])
                where[name] = rel
                if pend and s[pend[1]:m.start()].strip() == "":
                    docs[name] = pend[0]
                pend = None

out = [open(os.path.join(root, "tools", "design_head.md")).read().rstrip(), ""]
out += ["## Modules", "", "What each module models and where it is simpler than the code, from the heads of the files; more is said in the comment of each definition.", ""]
for rel, h in heads:
    h = re.sub(r"\n\s*\n", "\n\n  ", h)
    h = re.sub(r"\n(?=\S)", "\n  ", h)
    out.append(f"* `{rel}`: {h}" if h else f"* `{rel}`: lemmas for the modules that import it.")
out.append("")
props = [json.loads(l) for l in open(os.path.join(root, "properties.jsonl"))]
claims = {}
for block in open(os.path.join(root, "tools/claims.txt")).read().strip().split("\n\n"):
    lines = block.strip().split("\n")
    pid, status = lines[0].split()
    claims[pid] = (status, [t for t in lines[1].split() if t != "-"], " ".join(lines[2:]))
out += ["## Properties", "", "For each property its status, what is proved and what is not, and the theorems with the axioms they depend on (p: propext, c: Classical.choice, q: Quot.sound, -: none).", ""]
short = {"propext": "p", "Classical.choice": "c", "Quot.sound": "q"}
missing = []
for p in props:
    if p["id"] not in claims:
        continue
    st, th, note = claims[p["id"]]
    out += [f"### {p['id']} {p['title']} ({st})", "", p["statement"], ""]
    if note:
        out += ["*" + note.strip() + "*", ""]
    for t in th:
        full = t
        a = axioms.get(full)
        if a is None or full not in where:
            missing.append(t)
        ax = "?" if a is None else ("".join(sorted(short.get(x, x) for x in a)) or "-")
        doc = docs.get(full, "")
        doc = re.sub(r"^C\d+[^:.]*[:.]\s*", "", doc)
        out.append(f"* `{full}` [{ax}] ({where.get(full, '?')}){': ' + doc if doc else ''}")
    out.append("")
open(os.path.join(root, "DESIGN.md"), "w").write("\n".join(out))
print("missing:", missing)

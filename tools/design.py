"""Regenerates the tables at the end of DESIGN.md (below the marker line): which functions of /repo are cited by the
model, which property statements fail of the code (the `_counterexample` theorems with their comments), and the
axioms every theorem of MANIFEST.json depends on.  Needs a finished `lake build`."""
import glob, json, os, re, subprocess, tempfile

ROOT = os.path.dirname(os.path.dirname(os.path.abspath(__file__)))
MARK = "<!-- everything below is written by tools/design.py -->"

def coverage():
    out = subprocess.run(["python3", os.path.join(ROOT, "tools/coverage.py"), "--missing"], capture_output=True,
                         text=True, check=True).stdout.splitlines()
    rows, i = [], 0
    while i < len(out):
        m = re.match(r"(\S+): (\d+)/(\d+) functions", out[i])
        miss = ""
        if i + 1 < len(out) and out[i + 1].startswith("    "):
            miss = out[i + 1].strip()
            i += 1
        rows.append(f"| `{m[1]}` | {m[2]} / {m[3]} | {miss} |")
        i += 1
    return rows

def findings():
    rows = []
    for f in sorted(glob.glob(os.path.join(ROOT, "lean/Verif/Props/*.lean"))):
        src = open(f).read()
        for m in re.finditer(r"/--(.*?)-/\s*theorem\s+(C\d\d_\w*(?:counterexample|fails)\w*)", src, re.S):
            doc = m[1].rsplit("/--", 1)[-1]
            rows.append((m[2], " ".join(doc.split()).replace("|", "\\|"), os.path.basename(f)))
    rows.sort()
    return [f"* `{n}` ({f}): {d}" for n, d, f in rows]

def axioms():
    names = sorted({t for c in json.load(open(os.path.join(ROOT, "MANIFEST.json")))["claims"] for t in c["theorems"]})
    with tempfile.NamedTemporaryFile("w", suffix=".lean", delete=False) as t:
        t.write("import Verif\n" + "".join(f"#print axioms {n}\n" for n in names))
    out = subprocess.run(["lake", "env", "lean", t.name], cwd=os.path.join(ROOT, "lean"), capture_output=True,
                         text=True).stdout
    os.unlink(t.name)
    out = re.sub(r"\n\s+", " ", out)
    groups = {}
    for m in re.finditer(r"'([^']+)' (?:depends on axioms: \[([^\]]*)\]|does not depend on any axioms)", out):
        groups.setdefault(m[2] or "none", []).append(m[1].split(".")[-1])
    n = sum(map(len, groups.values()))
    assert n == len(names), (n, len(names))
    rows = [f"All {n} theorems named in MANIFEST.json, by the axioms Lean reports for them:", ""]
    for k in sorted(groups, key=len):
        rows += [f"* **{k}** ({len(groups[k])}): " + ", ".join(f"`{x}`" for x in groups[k])]
    return rows

if __name__ == "__main__":
    path = os.path.join(ROOT, "DESIGN.md")
    head = open(path).read().split(MARK)[0].rstrip()
    cov, fnd, axs = coverage(), findings(), axioms()
    body = [head, "", MARK, "", "## Functions of the code cited by the model", "",
            "| file | cited / all | not cited |", "| --- | --- | --- |", *cov, "",
            "## Where the code does not satisfy the English property", "",
            "Each of these is a theorem about the model.", "", *fnd, "",
            "## Axioms", "", *axs, ""]
    open(path, "w").write("\n".join(body))

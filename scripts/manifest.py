"""Writes MANIFEST.json: every theorem under lean/Verif/Props whose name starts with the
property id, with the status and note below (default: proved if there is a theorem)."""
import json, re, glob, os
root = os.path.dirname(os.path.dirname(os.path.abspath(__file__)))
notes = json.load(open(os.path.join(root, "scripts", "notes.json"), encoding="utf-8"))
thms = {}
for f in sorted(glob.glob(root + "/lean/Verif/Props/**/*.lean", recursive=True)):
    for m in re.finditer(r"^(?:private )?theorem (C\d\d+_[\w']+)", open(f, encoding="utf-8").read(), re.M):
        thms.setdefault(m.group(1).split("_")[0], []).append(m.group(1))
claims = []
for line in open(root + "/properties.jsonl", encoding="utf-8"):
    pid = json.loads(line)["id"]
    st, note = notes.get(pid, [None, ""])
    ts = thms.get(pid, [])
    if st is None:
        st = "proved" if ts else "partial"
        if not ts: note = "No theorem yet."
    claims.append({"property": pid, "status": st, "theorems": ["Lips." + t for t in ts], "note": note})
json.dump({"claims": claims}, open(root + "/MANIFEST.json", "w", encoding="utf-8"), indent=1, ensure_ascii=False)
print({s: sum(c["status"] == s for c in claims) for s in ("proved", "partial", "not_applicable")}, [c["property"] for c in claims if not c["theorems"]])

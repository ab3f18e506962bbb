"""Rebuild MANIFEST.json from the claims below and check that every named theorem exists."""
import json, pathlib, re, sys

ROOT = pathlib.Path(__file__).resolve().parent.parent
NOTES = json.loads((ROOT / "scripts" / "claims.json").read_text())
names = set()
for f in (ROOT / "lean" / "Verif").rglob("*.lean"):
    names |= set(re.findall(r"^(?:private )?(?:theorem|lemma) ([^\s:({\[]+)", f.read_text(), re.M))
claims, bad = [], []
for line in (ROOT / "properties.jsonl").read_text().splitlines():
    pid = json.loads(line)["id"]
    c = NOTES.get(pid)
    if c is None:
        claims.append({"property": pid, "status": "partial", "theorems": [], "note": "Not proved yet."})
        continue
    for t in c["theorems"]:
        if t not in names:
            bad.append((pid, t))
    claims.append({"property": pid, "status": c["status"],
                   "theorems": ["PyGCD." + t for t in c["theorems"]], "note": c["note"]})
if bad:
    sys.exit(f"missing theorems: {bad}")
(ROOT / "MANIFEST.json").write_text(json.dumps({"claims": claims}, indent=1, ensure_ascii=False) + "\n")
print(len(claims), "claims,", sum(c["status"] == "proved" for c in claims), "proved")

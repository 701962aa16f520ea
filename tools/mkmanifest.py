"""Writes MANIFEST.json: every theorem named C<nn>_... under lean/Verif/Props is listed under its
property. Status and notes are given below."""
import json, re, glob, os
here = os.path.dirname(os.path.dirname(os.path.abspath(__file__)))
PARTIAL = {}
NA = {}
NOTES = {}
exec(open(os.path.join(here, "tools", "notes.py")).read())
ths = {}
for f in sorted(glob.glob(os.path.join(here, "lean/Verif/Props/*.lean"))):
    ns = []
    for line in open(f):
        m = re.match(r"namespace (\S+)", line)
        if m: ns.append(m.group(1))
        m = re.match(r"end (\S+)", line)
        if m and ns and ns[-1] == m.group(1): ns.pop()
        m = re.match(r"(?:@\[[^\]]*\] )?(?:protected )?theorem ((C\d\d)_\S+)", line)
        if m: ths.setdefault(m.group(2), []).append(".".join(ns + [m.group(1)]))
claims = []
for line in open(os.path.join(here, "properties.jsonl")):
    p = json.loads(line)
    i = p["id"]
    t = ths.get(i, [])
    st = "partial" if i in PARTIAL else "not_applicable" if i in NA else "proved"
    if not t and st == "proved": continue
    note = PARTIAL.get(i) or NA.get(i) or NOTES.get(i, "")
    claims.append({"property": i, "status": st, "theorems": t, "note": note})
json.dump({"claims": claims}, open(os.path.join(here, "MANIFEST.json"), "w"), indent=1, ensure_ascii=False)
open(os.path.join(here, "MANIFEST.json"), "a").write("\n")
print(len(claims), sum(len(c["theorems"]) for c in claims))

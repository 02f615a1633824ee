import json
head = open("/verif/tools/design_head.md").read()
m = {c["property"]: c for c in json.load(open("/verif/MANIFEST.json"))["claims"]}
out = head + "## 5. Properties\n\nStatus of every property; `partial` with a `_refuted` theorem means that the code violates the property as stated.\n\n"
for l in open("/verif/properties.jsonl"):
    p = json.loads(l)
    c = m.get(p["id"])
    out += f"* **{p['id']}** {p['title']}. "
    if c is None:
        out += "No theorem yet.\n"
    else:
        out += f"*{c['status']}*: " + ", ".join("`" + t.replace("Verif.", "") + "`" for t in c["theorems"]) + "."
        out += (" " + c["note"] if c.get("note") else "") + "\n"
open("/verif/DESIGN.md", "w").write(out)

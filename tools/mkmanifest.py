#!/usr/bin/env python3
"""Writes MANIFEST.json from the table below and checks that every theorem exists in the sources."""
import json, re, glob, sys
C = {}
def claim(pid, status, theorems, note):
    assert pid not in C, pid
    C[pid] = dict(property=pid, status=status, theorems=["Veri." + t for t in theorems.split()], note=note)

claim("C01", "proved", "C01_key_roundtrip C01_datum_key_roundtrip",
      "All keys whose slices fit Go's allocation limit (2^48 bytes), any trailing bytes, any destination.")
claim("C02", "proved", "C02_value_roundtrip C02_datum_roundtrip", "Also whole datums through ToDatum.")
claim("C03", "proved", "C03_key_encoding_prefix_free C03_store_key_injective C03_value_encoding_injective",
      "No size hypothesis.")
claim("C04", "proved", "C04_encode_exact", "Buffer writes are bounds-checked in the model; none fails.")
claim("C05", "partial", "C05_truncated_key_rejected C05_truncated_value_partial C05_truncated_value_rejected_fails C05_truncated_value_leaks_old",
      "Proved for keys; false for values: a label cut short is accepted and padded (negation and exact behaviour proved).")
claim("C06", "partial", "C06_newDatum_partial C06_newDatum_keeps_arguments_fails C06_size2_collision",
      "False: NewDatum stores size1 as size2 (negation proved); exact behaviour proved.")
claim("C07", "proved", "C07_score_roundtrip", "All 64-bit patterns.")

exec(open(__file__.replace("mkmanifest.py", "claims.py")).read())

names = set()
for f in glob.glob("/verif/lean/Verif/**/*.lean", recursive=True):
    ns = []
    for line in open(f):
        m = re.match(r"namespace (\S+)", line)
        if m: ns.append(m.group(1))
        m = re.match(r"end (\S+)", line)
        if m and ns and ns[-1] == m.group(1): ns.pop()
        m = re.match(r"(?:@\[.*?\]\s*)?(?:private |protected )?theorem (\S+)", line)
        if m: names.add(".".join(ns + [m.group(1)]))
bad = [(c["property"], t) for c in C.values() for t in c["theorems"] if t not in names]
if bad: print("MISSING", bad); sys.exit(1)
props = [json.loads(l)["id"] for l in open("/verif/properties.jsonl")]
print("no claim yet:", [p for p in props if p not in C])
assert all(p in props for p in C)
json.dump({"claims": [C[p] for p in props if p in C]}, open("/verif/MANIFEST.json", "w"), indent=1)
print(len(C), "claims", {s: sum(c["status"] == s for c in C.values()) for s in ("proved", "partial", "not_applicable")})

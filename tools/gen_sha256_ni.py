#!/usr/bin/env python3
"""Translate the straight-line parts of src/sha256_ni.cpp and src/sha256_ni_rec.cpp, one instruction of
the model per statement, and write lean/Verif/Hash/Sha256NiCode.lean."""
import re
REG = {"MSG": "M", "STATE0": "S0", "STATE1": "S1", "HASH0_SAVE": "H0", "HASH1_SAVE": "H1",
       "HPAD0_CACHE": "P0", "HPAD1_CACHE": "P1"}
for i in range(4):
    REG[f"TMSG{i}"] = f"T{i}"; REG[f"MSGTMP{i}"] = f"T{i}"
def lines(f, a, b):
    return open(f).read().split("\n")[a - 1:b]
def expand(ls):
    """expand the macro defined in the lines"""
    out, macros, i = [], {}, 0
    while i < len(ls):
        l = ls[i].strip()
        if l.startswith("#define"):
            txt = ""
            while ls[i].rstrip().endswith("\\"):
                txt += ls[i].rstrip()[:-1] + "\n"; i += 1
            txt += ls[i]
            m = re.match(r"#define (\w+)\(([^)]*)\)(.*)", txt, re.S)
            macros[m.group(1)] = ([x.strip() for x in m.group(2).split(",")], m.group(3))
        else:
            m = re.match(r"(\w+)\((.*)\);$", l)
            if m and m.group(1) in macros:
                ps, body = macros[m.group(1)]
                args = [x.strip() for x in m.group(2).split(",")]
                assert len(ps) == len(args)
                d = dict(zip(ps, args))
                body = re.sub(r"\w+", lambda x: d.get(x.group(0), x.group(0)), body)
                out += [x.strip() for x in body.split("\n") if x.strip()]
            elif l and not l.startswith("//"):
                out.append(re.sub(r"//.*", "", l).strip())
        i += 1
    return out
def reg(x):
    """register name and lane"""
    m = re.match(r"(\w+?)(?:_P([12]))?$", x)
    return REG[m.group(1)], (int(m.group(2)) - 1 if m.group(2) else 0)
LOAD = r"_mm_load_si128\((?:reinterpret_cast<const __m128i\*>\(&K64\[(\d+)\]\)|K_mm(?: \+ (\d+))?)\)"
def stmt(l):
    l = l.rstrip(";").strip()
    d, e = [x.strip() for x in l.split("=", 1)]
    e = e.replace(", ", ",")
    rd, lane = reg(d)
    def r(x):
        if x in ("HPAD0_CACHE", "HPAD1_CACHE"): return reg(x)[0]
        n, k = reg(x); assert k == lane, l
        return n
    for pat, f in [
        (r"_mm_add_epi32\((\w+)," + LOAD + r"\)$",
         lambda m: f".addK {rd} {r(m[1])} {int(m[2]) if m[2] else 4 * int(m[3] or 0)}"),
        (r"_mm_add_epi32\((\w+),_mm_alignr_epi8\((\w+),(\w+),(\d+)\)\)$",
         lambda m: f".addAlign {rd} {r(m[1])} {r(m[2])} {r(m[3])} {m[4]}"),
        (r"_mm_sha256rnds2_epu32\((\w+),(\w+),(\w+)\)$",
         lambda m: f".rnds {rd} {r(m[1])} {r(m[2])} {r(m[3])}"),
        (r"_mm_sha256rnds2_epu32\((\w+),(\w+),_mm_shuffle_epi32\((\w+),(0x\w+)\)\)$",
         lambda m: f".rndsShuf {rd} {r(m[1])} {r(m[2])} {r(m[3])} {m[4]}"),
        (r"_mm_shuffle_epi32\((\w+),(0x\w+)\)$", lambda m: f".shuf {rd} {r(m[1])} {m[2]}"),
        (r"_mm_sha256msg1_epu32\((\w+),(\w+)\)$", lambda m: f".msg1 {rd} {r(m[1])} {r(m[2])}"),
        (r"_mm_sha256msg2_epu32\((\w+),(\w+)\)$", lambda m: f".msg2 {rd} {r(m[1])} {r(m[2])}"),
        (r"(\w+)$", lambda m: f".mov {rd} {r(m[1])}"),
    ]:
        m = re.match(pat, e)
        if m: return f(m), lane
    raise Exception("no translation: " + l)
def groups(f, a, b, split):
    return [[stmt(l) for l in g] for g in split(expand(lines(f, a, b)))]
def by_k(ls):
    """a new group starts where MSG is assigned from another variable"""
    g = []
    for l in ls:
        if re.match(r"MSG(_P1)? = (_mm_add_epi32\(TMSG|[A-Z]+\d[A-Z_0-9]*;)", l): g.append([])
        g[-1].append(l)
    assert len(g) == 16, len(g)
    return g
def ktable(f, a, b):
    return re.findall(r"0x[0-9A-F]{8}", "\n".join(lines(f, a, b)))
def emit_k(name, doc, ks):
    assert len(ks) == 64
    o = [f"/-- {doc} -/", f"def {name} : List (BitVec 32) := ["]
    for i in range(0, 64, 8):
        o.append("  " + ", ".join(x.lower() for x in ks[i:i + 8]) + ("," if i < 56 else "]"))
    return o + [""]
NI, REC = "/repo/src/sha256_ni.cpp", "/repo/src/sha256_ni_rec.cpp"
o = ["import Verif.Hash.Sha256Ni", "/-",
     "  Written by tools/gen_sha256_ni.py: the straight-line code of src/sha256_ni.cpp and",
     "  src/sha256_ni_rec.cpp, one instruction per statement, in groups of four rounds.",
     "-/", "namespace Verif.Hash.Ni", "open Reg", ""]
o += emit_k("Kni", "`K`, sha256_ni.cpp:28-45.", ktable(NI, 28, 45))
o += emit_k("Krec", "`K64` of `recursive_sha256_ni`, sha256_ni_rec.cpp:32-49.", ktable(REC, 32, 49))
o += emit_k("Krec2", "`K64` of `recursive_sha256_ni_x2`, sha256_ni_rec.cpp:195-212.", ktable(REC, 195, 212))
def emit(name, doc, gs, x2=False):
    o = [f"/-- {doc} -/", f"def {name} : List (List {'(Bool × Op)' if x2 else 'Op'}) := ["]
    for gi, g in enumerate(gs):
        if x2: items = [f"({'true' if k else 'false'}, {s})" for s, k in g]
        else: items = [s for s, k in g]
        rows, cur = [], "  ["
        for i, s in enumerate(items):
            t = s + (", " if i < len(items) - 1 else "]")
            if len(cur) + len(t) > 98: rows.append(cur.rstrip()); cur = "   "
            cur += t
        rows.append(cur)
        rows[-1] += "," if gi < 15 else "]"
        o += rows
    return o + [""]
o += emit("niGroups", "The rounds of `compress_digest`, sha256_ni.cpp:86-214.", groups(NI, 86, 214, by_k))
o += emit("recGroups", "The rounds of `recursive_sha256_ni`, sha256_ni_rec.cpp:82-168.", groups(REC, 82, 168, by_k))
o += emit("rec2Groups", "The rounds of `recursive_sha256_ni_x2`, sha256_ni_rec.cpp:258-401; `false` for the\n    variables `_P1` and `true` for `_P2`.", groups(REC, 258, 401, by_k), True)
o += ["end Verif.Hash.Ni", ""]
open("/verif/lean/Verif/Hash/Sha256NiCode.lean", "w").write("\n".join(o))

#!/usr/bin/env python3
"""Translate the straight-line parts of src/sha256_arm.cpp and src/sha256_arm_rec.cpp, one instruction of
the model per statement, and write lean/Verif/Hash/Sha256ArmCode.lean."""
import re
REG = {"MSGV": "M", "STATE0": "S0", "STATE1": "S1", "STATEV": "V", "HASH0_SAVE": "H0",
       "HASH1_SAVE": "H1", "HPAD0_CACHE": "P0", "HPAD1_CACHE": "P1"}
for i in range(4):
    REG[f"MSGTMP{i}"] = f"T{i}"
def lines(f, a, b):
    return open(f).read().split("\n")[a - 1:b]
def expand(ls):
    """expand the macro defined in the lines"""
    out, macros, i = [], {}, 0
    while i < len(ls):
        l = ls[i].strip()
        if l.startswith("#define"):
            txt = ""
            while ls[i].rstrip().endswith("\\"):
                txt += ls[i].rstrip()[:-1] + "\n"; i += 1
            txt += ls[i]
            m = re.match(r"#define (\w+)\(([^)]*)\)(.*)", txt, re.S)
            macros[m.group(1)] = ([x.strip() for x in m.group(2).split(",")], m.group(3))
        else:
            m = re.match(r"(\w+)\((.*)\);$", l)
            if m and m.group(1) in macros:
                ps, body = macros[m.group(1)]
                args = [x.strip() for x in m.group(2).split(",")]
                assert len(ps) == len(args)
                d = dict(zip(ps, args))
                body = re.sub(r"\w+", lambda x: d.get(x.group(0), x.group(0)), body)
                out += [x.strip() for x in body.split("\n") if x.strip()]
            elif l and not l.startswith("//"):
                out.append(re.sub(r"//.*", "", l).strip())
        i += 1
    return out
def reg(x):
    """register name and lane"""
    m = re.match(r"(\w+?)(?:_P([12]))?$", x)
    return REG[m.group(1)], (int(m.group(2)) - 1 if m.group(2) else 0)
def stmt(l):
    l = l.rstrip(";").strip()
    d, e = [x.strip() for x in l.split("=", 1)]
    e = e.replace(", ", ",")
    rd, lane = reg(d)
    def r(x):
        if x in ("HPAD0_CACHE", "HPAD1_CACHE"): return reg(x)[0]
        n, k = reg(x); assert k == lane, l
        return n
    for pat, f in [
        (r"vaddq_u32\((\w+),vld1q_u32\(&K64\[(\d+)\]\)\)$", lambda m: f".addK {rd} {r(m[1])} {m[2]}"),
        (r"vsha256hq_u32\((\w+),(\w+),(\w+)\)$", lambda m: f".h {rd} {r(m[1])} {r(m[2])} {r(m[3])}"),
        (r"vsha256h2q_u32\((\w+),(\w+),(\w+)\)$", lambda m: f".h2 {rd} {r(m[1])} {r(m[2])} {r(m[3])}"),
        (r"vsha256su0q_u32\((\w+),(\w+)\)$", lambda m: f".su0 {rd} {r(m[1])} {r(m[2])}"),
        (r"vsha256su1q_u32\((\w+),(\w+),(\w+)\)$", lambda m: f".su1 {rd} {r(m[1])} {r(m[2])} {r(m[3])}"),
        (r"(\w+)$", lambda m: f".mov {rd} {r(m[1])}"),
    ]:
        m = re.match(pat, e)
        if m: return f(m), lane
    raise Exception("no translation: " + l)
def groups(f, a, b):
    """a new group starts where MSGV (of the first hash) is assigned"""
    g = []
    for l in expand(lines(f, a, b)):
        if re.match(r"MSGV(_P1)? = ", l): g.append([])
        g[-1].append(stmt(l))
    assert len(g) == 16, len(g)
    return g
def ktable(f, a, b):
    return re.findall(r"0x[0-9A-F]{8}", "\n".join(lines(f, a, b)))
def emit_k(name, doc, ks):
    assert len(ks) == 64
    o = [f"/-- {doc} -/", f"def {name} : List (BitVec 32) := ["]
    for i in range(0, 64, 8):
        o.append("  " + ", ".join(x.lower() for x in ks[i:i + 8]) + ("," if i < 56 else "]"))
    return o + [""]
ARM, REC = "/repo/src/sha256_arm.cpp", "/repo/src/sha256_arm_rec.cpp"
o = ["import Verif.Hash.Sha256Arm", "/-",
     "  Written by tools/gen_sha256_arm.py: the straight-line code of src/sha256_arm.cpp and",
     "  src/sha256_arm_rec.cpp, one instruction per statement, in groups of four rounds.",
     "-/", "namespace Verif.Hash.Arm", "open Reg", ""]
o += emit_k("Karm", "`K64`, sha256_arm.cpp:18-35.", ktable(ARM, 18, 35))
o += emit_k("Krec", "`K64` of `recursive_sha256_arm`, sha256_arm_rec.cpp:27-44.", ktable(REC, 27, 44))
o += emit_k("Krec2", "`K64` of `recursive_sha256_arm_x2`, sha256_arm_rec.cpp:174-191.", ktable(REC, 174, 191))
def emit(name, doc, gs, x2=False):
    o = [f"/-- {doc} -/", f"def {name} : List (List {'(Bool × Op)' if x2 else 'Op'}) := ["]
    for gi, g in enumerate(gs):
        if x2: items = [f"({'true' if k else 'false'}, {s})" for s, k in g]
        else: items = [s for s, k in g]
        rows, cur = [], "  ["
        for i, s in enumerate(items):
            t = s + (", " if i < len(items) - 1 else "]")
            if len(cur) + len(t) > 98: rows.append(cur.rstrip()); cur = "   "
            cur += t
        rows.append(cur)
        rows[-1] += "," if gi < 15 else "]"
        o += rows
    return o + [""]
o += emit("armGroups", "The rounds of `compress_digest`, sha256_arm.cpp:72-190.", groups(ARM, 72, 190))
o += emit("recGroups", "The rounds of `recursive_sha256_arm`, sha256_arm_rec.cpp:79-154.", groups(REC, 79, 154))
o += emit("rec2Groups", "The rounds of `recursive_sha256_arm_x2`, sha256_arm_rec.cpp:240-362; `false` for the\n    variables `_P1` and `true` for `_P2`.", groups(REC, 240, 362), True)
o += ["end Verif.Hash.Arm", ""]
open("/verif/lean/Verif/Hash/Sha256ArmCode.lean", "w").write("\n".join(o))

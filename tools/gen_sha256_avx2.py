#!/usr/bin/env python3
"""Translate the rounds of src/sha256_avx2.cpp, one row per round, into
lean/Verif/Hash/Sha256AvxCode.lean."""
import re
ls = open("/repo/src/sha256_avx2.cpp").read().split("\n")
rows, pend = [], "none"
for l in ls[178:290]:
    l = l.strip()
    m = re.match(r"w\[(\d+)\] = ADD4_32\(WSIGMA1_AVX\(w\[(\d+)\]\), w\[(\d+)\], w\[(\d+)\], WSIGMA0_AVX\(w\[(\d+)\]\)\);$", l)
    if m:
        assert pend == "none"
        pend = f"some ({m[1]}, {m[2]}, {m[3]}, {m[4]}, {m[5]})"; continue
    m = re.match(r"SHA256ROUND_AVX\((.*), (\d+), w\[(\d+)\]\);$", l)
    assert m, l
    regs = re.findall(r"s\[(\d)\]", m[1]); assert len(regs) == 8
    rows.append(f"  ⟨{pend}, [{', '.join(regs)}], {m[2]}, {m[3]}⟩"); pend = "none"
assert len(rows) == 64
ks = re.findall(r"0x[0-9a-f]{8}", "\n".join(ls[42:60])); assert len(ks) == 64
o = ["import Verif.Hash.Sha256Avx", "/-",
     "  Written by tools/gen_sha256_avx2.py: the constants and the rounds of src/sha256_avx2.cpp.",
     "-/", "namespace Verif.Hash.Avx", "", "/-- `RC`, sha256_avx2.cpp:43-60. -/", "def RC : List (BitVec 32) := ["]
for i in range(0, 64, 8): o.append("  " + ", ".join(ks[i:i + 8]) + ("," if i < 56 else "]"))
o += ["", "/-- sha256_avx2.cpp:179-290, one row for each round with the assignment to `w` before it. -/",
      "def rows : List Row := ["]
o += [",\n".join(rows) + "]", "", "end Verif.Hash.Avx", ""]
open("/verif/lean/Verif/Hash/Sha256AvxCode.lean", "w").write("\n".join(o))

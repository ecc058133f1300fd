#!/usr/bin/env python3
"""Writes lean/Verif/Model/GenData.lean: the text of the command source files and of the generated tables in /repo/redis."""
names = ["hash_table", "keys", "list", "set", "sorted_set", "string"]
def esc(l):
    return l.replace("\\", "\\\\").replace('"', '\\"').replace("\t", "\\t")
out = ["import Verif.Model.Basic",
"/-!", "# The text of the files in /repo/redis that the generator reads and wrote", "",
"Written by tools/gen_data.py from /repo, byte for byte; do not edit.  Used only by Props/Gen.lean.", "-/",
"namespace Godis.GenData", "",
"/-- lines, each ended by a line feed -/",
"def unlines (ls : List Bytes) : Bytes := ls.flatMap (fun l => l ++ [10])", ""]
for n in names:
    for suf, tag in ((".go", "src"), (".cmd.go", "cmd")):
        t = open(f"/repo/redis/{n}{suf}", "rb").read().decode("ascii")
        assert t.endswith("\n") and "\r" not in t
        ls = t[:-1].split("\n")
        ident = f"{tag}_{n}"
        out.append(f"/-- the lines of redis/{n}{suf}:1-{len(ls)} -/")
        chunks = [ls[i:i+40] for i in range(0, len(ls), 40)]
        out.append(f"def {ident}_lines : List Bytes :=")
        for i, c in enumerate(chunks):
            body = ",\n    ".join('b! "%s"' % esc(l) for l in c)
            out.append(("  [" if i == 0 else "  ++ [") + body + "]")
        out.append("")
        out.append(f"/-- redis/{n}{suf} -/")
        out.append(f"def {ident} : Bytes := unlines {ident}_lines")
        out.append("")
out.append("end Godis.GenData")
open("/verif/lean/Verif/Model/GenData.lean", "w").write("\n".join(out) + "\n")

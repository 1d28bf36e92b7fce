#!/usr/bin/env python3
"""Compares 8_split_4.txt and 8_split_7.txt of the repository with the descriptions of the two lookup tables in
lean/Verif/Model/Sha256.lean (reverse4Table, reverse7Table). Reads the files as text; runs no code of the repository."""
import itertools, os, sys
root = sys.argv[1] if len(sys.argv) > 1 else "/repo"
d = os.path.join(root, "include/nil/blueprint/components/hashes/sha2/plonk/detail")

def load(name):
    t = open(os.path.join(d, name)).read().split()
    n, t = int(t[0]), [int(x, 16) for x in t[1:]]
    rows = list(zip(t[0::2], t[1::2]))
    assert len(rows) == n, (name, n, len(rows))
    return set(rows)

def row(base, ds):
    return sum((x % 2) << i for i, x in enumerate(ds)), sum(x * base ** i for i, x in enumerate(ds))

all_digits = list(itertools.product(range(4), repeat=8))
four = {row(4, ds) for ds in all_digits}
bad = {(0, 3), (3, 0)}
seven = {row(7, ds) for ds in all_digits if all((ds[i], ds[i + 5]) not in bad for i in range(3))}
ok4, ok7 = load("8_split_4.txt") == four, load("8_split_7.txt") == seven
print("8_split_4", "equal" if ok4 else "DIFFERENT", len(four))
print("8_split_7", "equal" if ok7 else "DIFFERENT", len(seven))
sys.exit(0 if ok4 and ok7 else 1)

.lake/
lean/.lake/
lean/build/

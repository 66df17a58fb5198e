.lake/
build/
lean/lake-manifest.json
